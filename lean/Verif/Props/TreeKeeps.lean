import Verif.GrammarKeep2
import Verif.Runs
import Verif.Props.ScannerInv

/-!
# C60: the tree holds every token of the text

In a parse that records no error every token of the text is stored in some node of the tree, apart from those of a fixed list
of kinds (comments, separators, and keywords such as `use` or `extends` that some rule reads without storing them) and those that
the parser drops in five situations, each of which has a witness below.
-/

namespace PhpLs.Parser

open PhpLs
open scoped List

set_option linter.unusedVariables false

/-! ## Specification -/

/-- The five situations in which the parser drops tokens without recording an error.  `doc` reads doc comments and `all` are the
tokens of the text.  Each situation is a run of a function of the grammar on an end of the text, at whatever depth of the
recursion. -/
inductive Dropped (doc : Token → Option Node) (all : List Token) (k : Token) : Prop
  /-- The token was read for a member of a class, interface or trait, and the member failed. -/
  | member (m : Nat) (f : P Node) (s : PSt) (n : Node) (s' s1 : PSt) (e : Err) (s2 : PSt) (hf : Kp.ClassLike (knot doc m) f)
      (hs : Rest s.toks all) (hr : f s = .ok n s') (he : s'.errors = []) (hk : k ∉ s'.toks) (hs1 : Rest s1.toks s.toks)
      (hm : classBlockStatement (knot doc m) s1 = .err e s2) (he2 : s2.errors = []) (h1 : k ∈ s1.toks) (h2 : k ∉ s2.toks)
  /-- The token was read in such a declaration, in the block of a `use` of traits, for a rule that is neither `as` nor
  `insteadof`. -/
  | alteration (m : Nat) (f : P Node) (s : PSt) (n : Node) (s' s0 : PSt) (n0 : Node) (s0' sg : PSt) (tr : List Node) (ng : Node)
      (sg' s1 s2 : PSt) (hf : Kp.ClassLike (knot doc m) f) (hs : Rest s.toks all) (hr : f s = .ok n s') (he : s'.errors = [])
      (hk : k ∉ s'.toks) (hs0 : Rest s0.toks s.toks) (hr0 : useTraitStatement (knot doc m) s0 = .ok n0 s0') (he0 : s0'.errors = [])
      (hk0 : k ∉ s0'.toks) (hsg : Rest sg.toks s0.toks) (hrg : traitUsageAlterationGroup (knot doc m) tr sg = .ok ng sg')
      (heg : sg'.errors = []) (hkg : k ∉ sg'.toks) (hs1 : Rest s1.toks sg.toks) (hm : alteration (knot doc m) s1 = .ok none s2)
      (he2 : s2.errors = []) (h1 : k ∈ s1.toks) (h2 : k ∉ s2.toks)
  /-- The token is a variable of a `static` statement that is not followed by `=`. -/
  | static (m : Nat) (s : PSt) (t : Token) (s0 : PSt) (n : Node) (s' s1 s2 s3 : PSt) (hs : Rest s.toks all)
      (hl : lookahead (fun k => k.t == .kwStatic) (fun k => k.t == .variable) s = .ok (some t) s0)
      (hr : staticVariables (knot doc m) t s0 = .ok n s') (he : s'.errors = []) (hk : k ∉ s'.toks) (hs1 : Rest s1.toks s0.toks)
      (hv : consume .variable s1 = .ok k s2) (ha : consumeOrIgnore .assignment s2 = .ok none s3) (he3 : s3.errors = [])
  /-- The token belongs to the attributes of a statement that is neither a function nor a class. -/
  | attrStatement (m : Nat) (s : PSt) (l : List Node) (s1 : PSt) (n : Node) (s' : PSt) (hs : Rest s.toks all)
      (ha : attributesBlock (knot doc m) s = .ok l s1) (hr : scriptStatement (knot doc m) s = .ok n s') (he : s'.errors = [])
      (hk : k ∈ s.toks) (hl : k ∈ Val.toks l)
      (hn : ∀ x, (peekOn s1.toks s1).1 = some x → x.t ∉ [.kwFunction, .kwClass, .kwAbstract, .kwFinal])
  /-- The token belongs to the attributes of an expression that is neither a function nor a class. -/
  | attrExpression (m : Nat) (s : PSt) (l : List Node) (s1 : PSt) (n : Node) (s' : PSt) (hs : Rest s.toks all)
      (ha : attributesBlock (knot doc m) s = .ok l s1) (hr : primaryAttr (knot doc m) s = .ok n s') (he : s'.errors = [])
      (hk : k ∈ s.toks) (hl : k ∈ Val.toks l)
      (hn : ∀ x, (peekOn s1.toks s1).1 = some x → x.t ∉ [.kwFunction, .kwClass, .kwFn])

/-! ## Proof -/

/-- The token `k` of the text `all`, and the reasons for losing it. -/
def keepOf (doc : Token → Option Node) (all : List Token) (k : Token) : Kp :=
  ⟨all, k, k.t ∈ lostKinds ∨ Dropped doc all k, .inl⟩

theorem rkeep_knot (doc : Token → Option Node) (all : List Token) (k : Token) :
    ∀ n, Kp.RKeep (keepOf doc all k) (knot doc n) := by
  intro n
  have ex : ∀ m, (∀ b A, (keepOf doc all k).Keeps A ((knot doc m).expression b) fun n => A ∨ Has k n) →
      (∀ A, (keepOf doc all k).Keeps A (knot doc m).statement fun n => A ∨ Has k n) →
      (∀ A, (keepOf doc all k).Keeps A (knot doc m).call fun n => A ∨ Has k n) → Kp.RKeep (keepOf doc all k) (knot doc m) := by
    intro m h1 h2 h3
    exact {
      expression := h1
      statement := h2
      call := h3
      member := fun f s n s' s1 e s2 a b c d e' f' g i j l => .inr (.member m f s n s' s1 e s2 a b c d e' f' g i j l)
      alteration := fun f s n s' s0 n0 s0' sg tr ng sg' s1 s2 h1 h2 h3 h4 h5 h6 h7 h8 h9 a b c d e f' g i j =>
        .inr (.alteration m f s n s' s0 n0 s0' sg tr ng sg' s1 s2 h1 h2 h3 h4 h5 h6 h7 h8 h9 a b c d e f' g i j)
      statics := fun s t s0 n s' s1 s2 s3 a b c d e f g i j => .inr (.static m s t s0 n s' s1 s2 s3 a b c d e f g i j)
      attrStatement := fun s l s1 n s' a b c d e f g => .inr (.attrStatement m s l s1 n s' a b c d e f g)
      attrExpression := fun s l s1 n s' a b c d e f g => .inr (.attrExpression m s l s1 n s' a b c d e f g) }
  induction n with
  | zero => exact ex 0 (fun _ _ => Kp.Keeps.diverge) (fun _ => Kp.Keeps.diverge) fun _ => Kp.Keeps.diverge
  | succ n ih => exact ex (n + 1) (fun b A => Kp.k_expressionF ih) (fun A => Kp.k_statementF ih) fun A => Kp.k_callF ih

/-- `Eof` is only the last token. -/
def EofLast (l : List Token) : Prop := ∀ p k r, l = p ++ k :: r → k.t = .eof → r = []

theorem EofLast.cons {k : Token} {l : List Token} (h : EofLast (k :: l)) : EofLast l :=
  fun p x r e hx => h (k :: p) x r (by rw [e]; rfl) hx

theorem EofLast.sub {l' l : List Token} (hs : l' <+ l) (h : EofLast l) : EofLast l' := by
  induction hs with
  | slnil => exact h
  | cons a _ ih => exact ih h.cons
  | @cons_cons l1 l2 a hs ih =>
    intro p k r e hk
    cases p with
    | nil =>
      cases e
      have : l2 = [] := h [] a l2 rfl hk
      subst this
      exact List.eq_nil_of_sublist_nil hs
    | cons x p => cases e; exact ih h.cons p k r rfl hk

theorem peekOn_end : ∀ (l : List Token) (s : PSt), EofLast l → (peekOn l s).1 = none → (peekOn l s).2.toks = []
  | [], s, h, hp => rfl
  | k :: r, s, h, hp => by
    unfold peekOn at hp ⊢
    split
    · rename_i he
      exact h [] k r rfl he
    · rename_i he
      rw [if_neg he] at hp
      split
      · rename_i hm; rw [if_pos hm] at hp; exact peekOn_end r _ h.cons hp
      · rename_i hm
        rw [if_neg hm] at hp
        split
        · rename_i ht; rw [if_pos ht] at hp; exact peekOn_end r _ h.cons hp
        · rename_i ht; rw [if_neg ht] at hp; cases hp

/-- The loop of `ast` ends with no tokens left. -/
theorem astLoop_end {c : Kp} {r : Rec} (h : Kp.RKeep c r) (hl : EofLast c.all) :
    ∀ (n : Nat) (stmts : List Node) (s : PSt) (l : List Node) (s' : PSt), c.In s → loopP .ast n (fun stmts => do
      match ← peek with
      | none => pure (.inr stmts)
      | some k =>
        if k.t = .eof then pure (.inr stmts)
        else do
          let stmts ← statementInto r stmts
          pure (.inl stmts)) stmts s = .ok l s' → s'.toks = [] := by
  intro n
  induction n with
  | zero => intro stmts s l s' hs h; cases h
  | succ n ih =>
    intro stmts s l s' hs hr
    unfold loopP at hr
    have hp := peekOn_end s.toks s (hl.sub hs.2)
    have hfr := Kp.peekOn_front s.toks s
    have hpk := Kp.peekOn_keeps s.toks s
    rw [Kp.P.bind_assoc, show ∀ {β} (g : Option Token → P β), (peek >>= g) = P.bind peek g from fun g => rfl] at hr
    unfold P.bind peek at hr
    cases hx : peekOn s.toks s with
    | mk o s1 =>
      rw [hx] at hr hp hfr hpk
      cases o with
      | none => cases hr; exact hp rfl
      | some k =>
        obtain ⟨r', hr', hne, -, -⟩ := hfr k rfl
        simp only [if_neg hne] at hr
        have hk := Kp.k_statementInto (A := True) (stmts := stmts) h s1 (hpk.2.1.trans hs)
        rw [Kp.P.bind_assoc] at hr
        rw [show ∀ {β} (g : List Node → P β), (statementInto r stmts >>= g) = P.bind (statementInto r stmts) g from fun g => rfl] at hr
        unfold P.bind at hr
        cases hst : statementInto r stmts s1 with
        | ok l2 s2 =>
          rw [hst] at hr hk
          exact ih _ _ _ _ (hk.1.trans (hpk.2.1.trans hs)) hr
        | err e s2 => rw [hst] at hr; cases hr
        | panic => rw [hst] at hr; cases hr
        | diverge x => rw [hst] at hr; cases hr

theorem keeps_astLoop {c : Kp} {r : Rec} (h : Kp.RKeep c r) : c.Keeps A (astLoop r) fun l => A ∨ Has c.k l := by
  unfold astLoop
  keep_auto

/-- **C60** — the tree holds every token.  For every list of tokens, with `Eof` only at the end, that the parser turns into a
tree without recording an error: every token is stored in some node of the tree, or is of one of the kinds that are not stored, or
is dropped in one of the five situations of `Dropped`. -/
theorem C60_tokens_kept (U : Unicode) (n : Nat) (tokens : List Token) (l : List Node) (s : PSt) (he : EofLast tokens)
    (hr : ast U n tokens = .ok l s) (hok : s.errors = []) :
    ∀ k ∈ tokens, k ∈ Node.toksL l ∨ k.t ∈ lostKinds ∨ Dropped (DocBlock.docNode U) tokens k := by
  intro k hk
  unfold ast at hr
  split at hr
  · rename_i h
    rw [List.isEmpty_iff.1 h] at hk
    cases hk
  · have hin : (keepOf (DocBlock.docNode U) tokens k).In (new tokens) := Rest.refl _
    have h := rkeep_knot (DocBlock.docNode U) tokens k n
    have hkeep := keeps_astLoop (A := False) h (new tokens) hin
    rw [hr] at hkeep
    have hend := astLoop_end h he _ _ _ _ _ hin hr
    rcases hkeep.2.2 (.inr (.inr (.inl hk))) with g | g | g | g | g
    · exact absurd hok g
    · exact .inr g
    · rw [hend] at g; cases g
    · exact g.elim
    · exact .inl (by rw [toksL_eq]; exact g)

/-! ## Texts in which nothing is dropped -/

/-- The kinds of the tokens with which the five situations start. -/
def dropStarts : List TT := [.kwClass, .kwInterface, .kwTrait, .kwStatic, .attributeStart]

/-- A token taken by `takeOrMissing` is one of the remaining ones. -/
theorem takeOrMissing_mem {f : Token → Bool} {s s' : PSt} {k : Token} (h : takeOrMissing f s = .ok (k, false) s') :
    k ∈ s.toks ∧ f k = true := by
  unfold takeOrMissing at h
  rw [show (peek >>= _ : P (Token × Bool)) = P.bind peek _ from rfl] at h
  unfold P.bind peek at h
  have hfront := Kp.peekOn_front s.toks s
  have hkeep := Kp.peekOn_keeps s.toks s
  cases hp : peekOn s.toks s with
  | mk o s1 =>
    rw [hp] at h hfront hkeep
    cases o with
    | none => cases h
    | some x =>
      obtain ⟨r, hr, he, hm, ht⟩ := hfront x rfl
      simp only at h hr
      by_cases hf : f x = true
      · have e : (if f x = true then (do let k' ← nextUnwrap; pure (k', false) : P (Token × Bool)) else fun s => .ok (Token.missing s.endPrev.end, true) s) =
            (do let k' ← nextUnwrap; pure (k', false) : P (Token × Bool)) := if_pos hf
        rw [e] at h
        rw [show (nextUnwrap >>= _ : P (Token × Bool)) = P.bind nextUnwrap _ from rfl] at h
        unfold P.bind nextUnwrap at h
        rw [show (next >>= _ : P Token) = P.bind next _ from rfl] at h
        unfold P.bind next at h
        simp only [hr] at h
        unfold nextOn at h
        simp only [if_neg hm, ht] at h
        cases hk : x.range with
        | none => rw [hk] at h; cases h
        | some rg =>
          rw [hk] at h
          cases h
          exact ⟨hkeep.2.1.mem (by rw [hr]; exact List.mem_cons_self), hf⟩
      · have e : (if f x = true then (do let k' ← nextUnwrap; pure (k', false) : P (Token × Bool)) else fun s => .ok (Token.missing s.endPrev.end, true) s) =
            (fun s => .ok (Token.missing s.endPrev.end, true) s : P (Token × Bool)) := if_neg hf
        rw [e] at h
        cases h

/-- If `consume` records no error, the token is there. -/
theorem consume_mem {t : TT} {s s' : PSt} {k : Token} (h : consume t s = .ok k s') (he : s'.errors = []) :
    k ∈ s.toks ∧ k.t = t := by
  unfold consume at h
  rw [show (takeOrMissing (fun k => k.t == t) >>= _ : P Token) = P.bind (takeOrMissing fun k => k.t == t) _ from rfl] at h
  unfold P.bind at h
  cases hx : takeOrMissing (fun k => k.t == t) s with
  | ok p s1 =>
    rw [hx] at h
    obtain ⟨x, wrong⟩ := p
    cases wrong with
    | false =>
      cases h
      obtain ⟨h1, h2⟩ := takeOrMissing_mem hx
      exact ⟨h1, eq_of_beq h2⟩
    | true =>
      simp only [if_true] at h
      rw [show (errorFastForward >>= _ : P Token) = P.bind errorFastForward _ from rfl] at h
      unfold P.bind at h
      cases hy : errorFastForward s1 with
      | ok u s2 =>
        rw [hy] at h
        cases h
        simp at he
      | err e s2 => rw [hy] at h; cases h
      | panic => rw [hy] at h; cases h
      | diverge x => rw [hy] at h; cases h
  | err e s1 => rw [hx] at h; cases h
  | panic => rw [hx] at h; cases h
  | diverge x => rw [hx] at h; cases h

/-- A setting in which everything is excused: all that is left of the logic is that errors are not forgotten. -/
def anything (all : List Token) (k : Token) : Kp := ⟨all, k, True, fun _ => trivial⟩

theorem rkeep_anything (doc : Token → Option Node) (all : List Token) (k : Token) (n : Nat) :
    Kp.RKeep (anything all k) (knot doc n) := by
  have h := rkeep_knot doc all k n
  have w : ∀ {α : Type} {A : Prop} {f : P α} {Q : α → Prop}, (keepOf doc all k).Keeps A f Q → (anything all k).Keeps A f Q := by
    intro α A f Q h s hs
    have := h s hs
    cases hf : f s with
    | ok a s' => rw [hf] at this; exact ⟨this.1, this.2.1, fun _ => .inr (.inl trivial)⟩
    | err e s' => rw [hf] at this; exact this
    | panic => trivial
    | diverge x => trivial
  exact {
    expression := fun b A => w (h.expression b A)
    statement := fun A => w (h.statement A)
    call := fun A => w (h.call A)
    member := fun _ _ _ _ _ _ _ _ _ _ _ _ _ _ _ _ _ => trivial
    alteration := fun _ _ _ _ _ _ _ _ _ _ _ _ _ _ _ _ _ _ _ _ _ _ _ _ _ _ _ _ _ _ _ => trivial
    statics := fun _ _ _ _ _ _ _ _ _ _ _ _ _ _ _ _ _ => trivial
    attrStatement := fun _ _ _ _ _ _ _ _ _ _ _ _ => trivial
    attrExpression := fun _ _ _ _ _ _ _ _ _ _ _ _ => trivial }

theorem consume_first {c : Kp} {t : TT} {g : Token → P α} {A : Prop} {Q : α → Prop} (hg : ∀ k, c.Keeps A (g k) Q) {s s' : PSt} {n : α}
    (hs : c.In s) (h : (consume t >>= g) s = .ok n s') (he : s'.errors = []) : ∃ x ∈ s.toks, x.t = t := by
  rw [show (consume t >>= g) = P.bind (consume t) g from rfl] at h
  unfold P.bind at h
  have hc := Kp.keeps_consume (c := c) (A := True) (t := t) s hs
  cases hx : consume t s with
  | ok k s1 =>
    rw [hx] at h hc
    have hg := hg k s1 (hc.1.trans hs)
    have h : g k s1 = .ok n s' := h
    rw [h] at hg
    have he1 : s1.errors = [] := by
      apply Classical.byContradiction
      intro hn
      exact hg.2.1 hn he
    obtain ⟨h1, h2⟩ := consume_mem hx he1
    exact ⟨k, h1, h2⟩
  | err e s1 => rw [hx] at h; cases h
  | panic => rw [hx] at h; cases h
  | diverge x => rw [hx] at h; cases h

theorem popDoc_first {doc : Token → Option Node} {g : Option Node → P α} {s s' : PSt} {n : α}
    (h : (popDoc doc >>= g) s = .ok n s') : ∃ d s1, s1.toks = s.toks ∧ g d s1 = .ok n s' := by
  rw [show (popDoc doc >>= g) = P.bind (popDoc doc) g from rfl] at h
  unfold P.bind popDoc at h
  cases hd : s.docs with
  | nil => rw [hd] at h; exact ⟨_, _, rfl, h⟩
  | cons k l =>
    rw [hd] at h
    simp only at h
    cases hx : doc k with
    | none => rw [hx] at h; cases h
    | some n => rw [hx] at h; exact ⟨some n, { s with docs := l }, rfl, h⟩

/-- A declaration that records no error starts with its keyword. -/
theorem classLike_start {doc : Token → Option Node} {m : Nat} {f : P Node} (hf : Kp.ClassLike (knot doc m) f) {s s' : PSt} {n : Node}
    (h : f s = .ok n s') (he : s'.errors = []) : ∃ x ∈ s.toks, x.t ∈ dropStarts := by
  have hin : ∀ s1 : PSt, s1.toks = s.toks → (anything s.toks (Token.missing (0, 0))).In s1 := fun s1 e => by
    unfold Kp.In; rw [e]; exact Rest.refl _
  have hr := rkeep_anything doc s.toks (Token.missing (0, 0)) m
  have hx : Kp.MemberExcuse (anything s.toks (Token.missing (0, 0))) (knot doc m) :=
    ⟨fun _ _ _ _ _ _ _ _ => trivial, fun _ _ _ _ _ _ _ _ _ _ _ _ _ _ _ _ _ _ _ _ _ _ => trivial⟩
  cases hf with
  | «class» a b attributes =>
    unfold classStatement at h
    obtain ⟨d, s1, e1, h⟩ := popDoc_first h
    obtain ⟨x, h1, h2⟩ := consume_first (A := True) (Q := fun _ => True) (by intro k; keep_auto) (hin s1 e1) h he
    exact ⟨x, e1 ▸ h1, by rw [h2]; decide⟩
  | interface =>
    unfold interface' at h
    obtain ⟨d, s1, e1, h⟩ := popDoc_first h
    obtain ⟨x, h1, h2⟩ := consume_first (A := True) (Q := fun _ => True) (by intro k; keep_auto) (hin s1 e1) h he
    exact ⟨x, e1 ▸ h1, by rw [h2]; decide⟩
  | trait =>
    unfold traitStatement at h
    obtain ⟨d, s1, e1, h⟩ := popDoc_first h
    obtain ⟨x, h1, h2⟩ := consume_first (A := True) (Q := fun _ => True) (by intro k; keep_auto) (hin s1 e1) h he
    exact ⟨x, e1 ▸ h1, by rw [h2]; decide⟩
  | anonymous attributes =>
    unfold anonymousClass at h
    obtain ⟨x, h1, h2⟩ := consume_first (A := True) (Q := fun _ => True) (by intro k; keep_auto) (hin s rfl) h he
    exact ⟨x, h1, by rw [h2]; decide⟩

/-- Attributes start with `#[`. -/
theorem attributes_start {r : Rec} {s s1 : PSt} {l : List Node} {k : Token} (h : attributesBlock r s = .ok l s1) (hk : k ∈ Val.toks l) :
    ∃ x ∈ s.toks, x.t = .attributeStart := by
  unfold attributesBlock at h
  cases hn : r.fuel with
  | zero => rw [hn] at h; cases h
  | succ n =>
    rw [hn] at h
    unfold loopP at h
    rw [Kp.P.bind_assoc] at h
    unfold nextOneOf nextIs at h
    rw [Kp.P.bind_assoc, show ∀ {β} (g : Option Token → P β), (peek >>= g) = P.bind peek g from fun g => rfl] at h
    unfold P.bind peek at h
    have hfr := Kp.peekOn_front s.toks s
    have hkeep := Kp.peekOn_keeps s.toks s
    cases hp : peekOn s.toks s with
    | mk o s2 =>
      rw [hp] at h hfr hkeep
      cases o with
      | none => cases h; simp [Val.toks] at hk
      | some x =>
        obtain ⟨r', hr', -, -, -⟩ := hfr x rfl
        by_cases hx : x.t = .attributeStart
        · exact ⟨x, hkeep.2.1.mem (by rw [hr']; exact List.mem_cons_self), hx⟩
        · have hc : ([TT.attributeStart].contains x.t) = false := by simpa using hx
          simp only [Kp.P.pure_bind, hc, Bool.false_eq_true, if_false] at h
          cases h
          simp [Val.toks] at hk

theorem lookahead_start {f g : Token → Bool} {s s' : PSt} {t : Token} (h : lookahead f g s = .ok (some t) s') : ∃ x ∈ s.toks, f x = true := by
  unfold lookahead at h
  rw [show (takeIf f >>= _ : P (Option Token)) = P.bind (takeIf f) _ from rfl] at h
  unfold P.bind at h
  cases hx : takeIf f s with
  | ok o s1 =>
    rw [hx] at h
    cases o with
    | none => cases h
    | some k =>
      obtain ⟨-, h2, -, h4⟩ := Kp.takeIf_sub hx
      exact ⟨k, h2.mem List.mem_cons_self, h4⟩
  | err e s1 => rw [hx] at h; cases h
  | panic => rw [hx] at h; cases h
  | diverge x => rw [hx] at h; cases h

/-- Nothing is dropped unless the text has a class, an interface, a trait, `static` or an attribute. -/
theorem dropped_start {doc : Token → Option Node} {all : List Token} {k : Token} (h : Dropped doc all k) :
    ∃ x ∈ all, x.t ∈ dropStarts := by
  cases h with
  | member m f s n s' s1 e s2 hf hs hr he =>
    obtain ⟨x, h1, h2⟩ := classLike_start hf hr he
    exact ⟨x, hs.mem h1, h2⟩
  | alteration m f s n s' s0 n0 s0' sg tr ng sg' s1 s2 hf hs hr he =>
    obtain ⟨x, h1, h2⟩ := classLike_start hf hr he
    exact ⟨x, hs.mem h1, h2⟩
  | static m s t s0 n s' s1 s2 s3 hs hl =>
    obtain ⟨x, h1, h2⟩ := lookahead_start hl
    exact ⟨x, hs.mem h1, by rw [eq_of_beq h2]; decide⟩
  | attrStatement m s l s1 n s' hs ha hr he hk hl =>
    obtain ⟨x, h1, h2⟩ := attributes_start ha hl
    exact ⟨x, hs.mem h1, by rw [h2]; decide⟩
  | attrExpression m s l s1 n s' hs ha hr he hk hl =>
    obtain ⟨x, h1, h2⟩ := attributes_start ha hl
    exact ⟨x, hs.mem h1, by rw [h2]; decide⟩

/-- **C60** — without exceptions: in a text without classes, interfaces, traits, `static` and attributes that is parsed without
an error, the tree holds every token that is not of one of the kinds that are not stored. -/
theorem C60_tokens_kept_plain (U : Unicode) (n : Nat) (tokens : List Token) (l : List Node) (s : PSt) (he : EofLast tokens)
    (hr : ast U n tokens = .ok l s) (hok : s.errors = []) (hd : ∀ k ∈ tokens, k.t ∉ dropStarts) :
    ∀ k ∈ tokens, k.t ∉ lostKinds → k ∈ Node.toksL l := by
  intro k hk hl
  rcases C60_tokens_kept U n tokens l s he hr hok k hk with h | h | h
  · exact h
  · exact absurd h hl
  · obtain ⟨x, h1, h2⟩ := dropped_start h
    exact absurd h2 (hd x h1)

/-! ## From the text -/

/-- None of the tokens is `Eof`. -/
def NoEof (s : Scanner.St) : Prop := ∀ k ∈ s.toks, k.t ≠ .eof

theorem NoEof.push {s : Scanner.St} (h : NoEof s) {t : TT} (ht : t ≠ .eof) : NoEof (s.push t) := by
  unfold Scanner.St.push
  split
  · exact h
  · intro k hk
    rcases List.mem_cons.1 hk with rfl | hk
    · exact ht
    · exact h k hk

theorem NoEof.advanceOn {s : Scanner.St} (h : NoEof s) : ∀ l : Text, NoEof (s.advanceOn l).2
  | [] => h
  | c :: r => by
    unfold Scanner.St.advanceOn
    split
    · exact h.push (t := .linebreak) (by decide)
    · split
      · exact NoEof.advanceOn h r
      · exact h

theorem NoEof.prim {s s' : Scanner.St} (h : NoEof s) (p : Scanner.Prim True s s') : NoEof s' := by
  cases p with
  | adv => exact h.advanceOn _
  | push t ht => exact h.push ht.2
  | named t l hl hb hc =>
    intro k hk
    rcases List.mem_cons.1 hk with rfl | hk
    · intro e
      have e : t = .eof := e
      rw [e] at hl
      cases hl
    · exact h k hk
  | enter => exact h
  | leave => exact h
  | cast q p rest k off hs hp hq ho =>
    intro x hx
    rcases List.mem_cons.1 hx with rfl | hx
    · intro e
      have e : k = .eof := e
      subst e
      revert hq
      cases q.t <;> simp [mapCast]
    · exact h x (by rw [hs]; exact List.mem_cons_of_mem _ (List.mem_cons_of_mem _ hx))
  | yieldFrom y rest hs hy =>
    exact NoEof.push (s := { s with toks := rest }) (fun x hx => h x (by rw [hs]; exact List.mem_cons_of_mem _ hx)) (by decide)

/-- `Eof` is only the last token of a scanned text. -/
theorem scan_eofLast (U : Unicode) (text : Text) (s : Scanner.St) (h : Scanner.scan U text = .ok s) : EofLast s.tokens := by
  have key : ∀ n a, NoEof a → Scanner.loop U n a = .ok s → ∃ b, NoEof b ∧ s = b.push .eof := by
    intro n
    induction n with
    | zero => intro a ha h; simp [Scanner.loop] at h
    | succ n ih =>
      intro a ha h
      unfold Scanner.loop at h
      have hadv : NoEof a.mark.adv := NoEof.prim (s := a.mark) ha (.adv _)
      split at h
      · rename_i s' e
        refine ih s' ?_ h
        have hr := Scanner.step_cont_reach U e
        clear e h
        induction hr with
        | refl => exact hadv
        | tail _ p ih => exact ih.prim p
      · rename_i s' e
        cases h
        exact ⟨_, hadv, (Scanner.step_done U e).1⟩
      · cases h
      · cases h
  obtain ⟨b, hb, rfl⟩ := key _ _ (fun k hk => by cases hk) h
  have hne : ∀ l : List Token, (∀ k ∈ l, k.t ≠ .eof) → EofLast l := by
    intro l hl p k r e hk
    exact absurd hk (hl k (by rw [e]; exact List.mem_append_right _ List.mem_cons_self))
  unfold Scanner.St.tokens Scanner.St.push
  split
  · exact hne _ fun k hk => hb k (List.mem_reverse.1 hk)
  · intro p k r e hk
    rw [List.reverse_cons] at e
    cases hr : r.reverse with
    | nil => simpa using hr
    | cons y r' =>
      have hr : r = r'.reverse ++ [y] := by rw [← List.reverse_reverse r, hr, List.reverse_cons]
      rw [hr] at e
      have e : b.toks.reverse ++ [Token.new .eof b.sLine b.sCol b.toks.length] = (p ++ k :: r'.reverse) ++ [y] := by simpa using e
      obtain ⟨e1, -⟩ := List.append_inj' e rfl
      exact absurd hk (hb k (by rw [← List.mem_reverse, e1]; exact List.mem_append_right _ List.mem_cons_self))

/-- **C60** — for a text: of a file that is shown without a diagnostic, the tree that the server keeps holds every token, apart
from those of the kinds that are not stored and those dropped in one of the five situations. -/
theorem C60_text_kept (h : Host) (text : Text) (l : List Node) (r : LspRange) (hs : Backend.sourceToAst h text = .ok (some (l, r, [])))
    : ∃ s, Scanner.scan h.U text = .ok s ∧ ∀ k ∈ s.tokens, k ∈ Node.toksL l ∨ k.t ∈ lostKinds ∨
      (∃ x ∈ s.tokens, x.t ∈ dropStarts) ∧ Dropped (DocBlock.docNode h.U) s.tokens k := by
  unfold Backend.sourceToAst at hs
  cases hx : Scanner.scan h.U text with
  | ok s =>
    rw [hx] at hs
    simp only at hs
    cases hy : ast h.U h.fuel s.tokens with
    | ok l' p =>
      rw [hy] at hs
      simp only [Out.ok.injEq, Option.some.injEq, Prod.mk.injEq] at hs
      obtain ⟨rfl, -, he⟩ := hs
      refine ⟨s, rfl, fun k hk => ?_⟩
      rcases C60_tokens_kept h.U h.fuel s.tokens l' p (scan_eofLast h.U text s hx) hy he k hk with g | g | g
      · exact .inl g
      · exact .inr (.inl g)
      · exact .inr (.inr ⟨dropped_start g, g⟩)
    | err e p => rw [hy] at hs; cases hs
    | panic => rw [hy] at hs; cases hs
    | diverge x => rw [hy] at hs; cases hs
  | err e s => rw [hx] at hs; cases hs
  | panic => rw [hx] at hs; cases hs
  | outOfFuel => rw [hx] at hs; cases hs

/-! ## Witnesses -/

/-- The kinds and labels of the tokens of a text that its tree does not hold, if there is no diagnostic. -/
def lostOf (source : String) : Option (List (TT × String)) :=
  match Scanner.scan Unicode.ascii source.toList with
  | .ok s =>
    match ast Unicode.ascii 60 s.tokens with
    | .ok l p =>
      if p.errors.length = 0 then
        some ((s.tokens.filter fun k => !decide (k ∈ Node.toksL l)).map fun k => (k.t, String.ofList (k.label.getD [])))
      else none
    | _ => none
  | _ => none

/-- The words that the tree does not hold although they are not of one of the kinds that are not stored. -/
def lostWords (source : String) : Option (List String) :=
  (lostOf source).map fun l => (l.filter fun p => p.2 ≠ "" ∧ p.1 ∉ lostKinds).map (·.2)

def sampleTexts : List String := [
  "a <?php // c\n /* d */ namespace A; use function f; use const C; use B\\{D, E}; class X extends Y implements Z { const Q = 1, W = 2; final public static function g(int|string $a): ?int { switch ($a) { case 1: echo <<<A\nx\nA; break; default: return 2; } for ($i = 0; $i < 1; $i++) { } } } $f = function ($x) use ($y) { }; try { } catch (E | F $e) { } finally { } ?> b",
  "<? echo 1; ?> a",
  "<?php class A { abstract public protected private var static public $x; final final function g(); }",
  "a <?= $x ?> b"]

/-- Every kind of the list is needed: for each there is a text without diagnostics whose tree lacks a token of this kind. -/
theorem C60_lost_kinds_lost : (lostKinds.all fun t => sampleTexts.any fun x =>
    match lostOf x with
    | some l => l.any fun p => p.1 == t
    | none => false) = true := by
  decide +kernel

/-- Non-trivial cases of `C60_tokens_kept`: no word is lost. -/
theorem C60_kept_case : sampleTexts.map lostWords = [some [], some [], some [], some []] := by
  decide +kernel

/-- A non-trivial case of `C60_tokens_kept_plain`. -/
theorem C60_plain_case : lostOf "<?php namespace A; if ($a > 1) { echo f($a, [1, 2 => $b]); } else { $x->y::z[3] = fn($q) => $q ?? null; }" =
    some [(.scriptStartRegular, ""), (.semicolon, ""), (.comma, ""), (.comma, ""), (.semicolon, ""), (.semicolon, ""), (.eof, "")] := by
  decide +kernel

/-- **C60** — the variable of a `static` statement without a value is not in the tree. -/
theorem C60_violated_static : lostWords "<?php static $a, $b = 1; " = some ["a"] := by decide +kernel

/-- **C60** — the attributes of an interface are not in the tree. -/
theorem C60_violated_interface : lostWords "<?php #[A] interface I { }" = some ["A"] := by decide +kernel

/-- **C60** — nor are those of an instantiation. -/
theorem C60_violated_new : lostWords "<?php $x = #[A(1)] new B;" = some ["A", "1"] := by decide +kernel

/-- **C60** — a rule of a trait block that is neither `as` nor `insteadof` is not in the tree. -/
theorem C60_violated_alteration : lostWords "<?php class A { use T { foo; T::bar as baz; } }" = some ["foo"] := by decide +kernel

/-- **C60** — a broken member of a class is dropped, although no diagnostic is shown. -/
theorem C60_violated_member : lostWords "<?php class A { const X = ) function f() {} }" = some ["X"] := by decide +kernel

end PhpLs.Parser
