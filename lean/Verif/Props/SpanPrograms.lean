import Verif.Props.Spans
import Verif.Props.Programs

/-!
# C71 for programs

The hypotheses of `C71_kept` speak about the tree and the places of its tokens.  Here they are derived for the programs of a
small grammar, a part of that of C67: assignments and other operators between variables and literals, and while loops.
-/

namespace PhpLs

namespace Spans

open Parser (Plain strip Tok Ex infixLevel)
open Syntax (Var Rim Is)

/-! ## Specification -/

/-- An expression of variables, literals and operators between them, with the operators on its left edge and what is open at
its right edge. -/
inductive Term : Node → List TT → List Rim → List Token → Prop where
  | literal {k : Token} (h : Plain k) (hk : k.t ∈ Parser.literalSet) : Term (.literal k) [] [] [k]
  | «variable» {k : Token} (h : Var k) : Term (.variable k) [] [] [k]
  | binary {k : Token} {ts us : List Token} {l r : Node} {ls ls' : List TT} {rs rs' : List Rim} (hl : Term l ls rs ts)
      (hk : Plain k) (hi : (infixLevel k.t).isSome = true) (hq : k.t ≠ .questionMark) (hr : Term r ls' rs' us)
      (hrs : ∀ o ∈ rs, ¬ o.Admits k.t) (hls : ∀ t ∈ ls', (Ex.Edge.inf k.t).Admits t) :
      Term (.binary l k r) (k.t :: ls) (.op (.inf k.t) :: rs') (ts ++ k :: us)

mutual

/-- A statement with at most `d` loops around each other. -/
inductive Stm : Nat → Node → List Token → Prop where
  | expr {d : Nat} {ts : List Token} {n : Node} {ls : List TT} {rs : List Rim} {e : Token} (h : Term n ls rs ts)
      (he : Tok .semicolon e) : Stm d (.expressionStatement n) (ts ++ [e])
  | block {d : Nat} {k lp rp oc cc : Token} {ts us : List Token} {c : Node} {ls : List TT} {rs : List Rim} {ns : List Node}
      (hk : Tok .kwWhile k) (hl : Tok .openParenthesis lp) (hc : Term c ls rs ts) (hr : Tok .closeParenthesis rp)
      (ho : Tok .openCurly oc) (hb : Stms d ns us) (hcc : Tok .closeCurly cc) :
      Stm (d + 1) (.whileStatement k lp c rp (.block oc ns cc)) (k :: lp :: (ts ++ rp :: oc :: (us ++ [cc])))
  | single {d : Nat} {k lp rp : Token} {ts us : List Token} {c b : Node} {ls : List TT} {rs : List Rim}
      (hk : Tok .kwWhile k) (hl : Tok .openParenthesis lp) (hc : Term c ls rs ts) (hr : Tok .closeParenthesis rp)
      (hb : Stm d b us) : Stm (d + 1) (.whileStatement k lp c rp b) (k :: lp :: (ts ++ rp :: us))

/-- Such statements. -/
inductive Stms : Nat → List Node → List Token → Prop where
  | nil {d : Nat} : Stms d [] []
  | cons {d : Nat} {n : Node} {ns : List Node} {ts us : List Token} (h : Stm d n ts) (hm : Stms d ns us) :
      Stms d (n :: ns) (ts ++ us)

end

/-- Line comments and line breaks. -/
def Soft (t : TT) : Prop := t = .lineComment ∨ t = .linebreak

/-- The tokens between statements. -/
def Border (t : TT) : Prop :=
  t ∈ [TT.semicolon, .openCurly, .closeCurly, .scriptStartRegular, .scriptStartShort]

/-- Line comments stand between statements only: in front of a line comment, other comments and line breaks left aside, there is
the end of a statement, a brace or the opening tag. -/
def Tidy (ts : List Token) : Prop :=
  ∀ (i j : Nat) (k c : Token), i < j → ts[i]? = some k → ¬ Soft k.t → Only ts (i + 1) j Soft → ts[j]? = some c →
    c.t = .lineComment → Border k.t

/-- Behind a line comment there is a line break. -/
def Broken (ts : List Token) : Prop :=
  ∀ (i : Nat) (k : Token), ts[i]? = some k → k.t = .lineComment → At ts (i + 1) (· = .linebreak)

/-! ## The grammar is a part of that of C67 -/

theorem Term.bare {n : Node} {ls : List TT} {rs : List Rim} {ts : List Token} (h : Term n ls rs ts) : Rim.bare ∉ rs := by
  induction h with
  | literal => simp
  | «variable» => simp
  | binary hl hk hi hq hr hrs hls ihl ihr => simpa using ihr

theorem Term.is {doc : Token → Option Node} {n : Node} {ls : List TT} {rs : List Rim} {ts : List Token} (h : Term n ls rs ts) :
    Is doc (.expr n ls rs) ts := by
  induction h with
  | literal h hk => exact .call (.prim (.lit h hk))
  | «variable» h => exact .call (.prim (.var h))
  | binary hl hk hi hq hr hrs hls ihl ihr => exact .bin ihl hk hi hq ihr hrs hls

/-- A token within a statement. -/
structure Inner (k : Token) : Prop where
  plain : Plain k
  border : ¬ Border k.t

theorem inner_of {k : Token} {t : TT} (h : Tok t k) (hb : ¬ Border t) : Inner k := ⟨h.1, by rw [h.2]; exact hb⟩

theorem literal_border : ∀ t : TT, t ∈ Parser.literalSet → ¬ Border t := by
  intro t h hb
  unfold Border at hb
  simp only [List.mem_cons, List.not_mem_nil, or_false] at hb
  rcases hb with rfl | rfl | rfl | rfl | rfl <;> revert h <;> decide

theorem infix_border : ∀ t : TT, (infixLevel t).isSome = true → ¬ Border t := by
  intro t h hb
  unfold Border at hb
  simp only [List.mem_cons, List.not_mem_nil, or_false] at hb
  rcases hb with rfl | rfl | rfl | rfl | rfl <;> revert h <;> decide

theorem Term.inner {n : Node} {ls : List TT} {rs : List Rim} {ts : List Token} (h : Term n ls rs ts) : ∀ k ∈ ts, Inner k := by
  induction h with
  | literal h hk =>
    intro x hx
    rw [List.mem_singleton.mp hx]
    exact ⟨h, literal_border _ hk⟩
  | «variable» h =>
    intro x hx
    rw [List.mem_singleton.mp hx]
    exact inner_of h.1 (by unfold Border; decide)
  | binary hl hk hi hq hr hrs hls ihl ihr =>
    intro x hx
    rcases List.mem_append.mp hx with hx | hx
    · exact ihl x hx
    · rcases List.mem_cons.mp hx with rfl | hx
      · exact ⟨hk, infix_border _ hi⟩
      · exact ihr x hx

theorem Term.first {n : Node} {ls : List TT} {rs : List Rim} {ts : List Token} (h : Term n ls rs ts) :
    ∃ k r, ts = k :: r ∧ Plain k ∧ (k.t ∈ Parser.literalSet ∨ k.t = .variable) := by
  induction h with
  | literal h hk => exact ⟨_, _, rfl, h, .inl hk⟩
  | «variable» h => exact ⟨_, _, rfl, h.1.1, .inr h.1.2⟩
  | binary hl hk hi hq hr hrs hls ihl ihr =>
    obtain ⟨k, r, rfl, h1, h2⟩ := ihl
    exact ⟨k, _, rfl, h1, h2⟩

theorem term_start {t : TT} (h : t ∈ Parser.literalSet ∨ t = .variable) :
    (t != .kwFunction && t != .kwClass) = true ∧ t ≠ .openCurly := by
  rcases h with h | rfl
  · revert h
    cases t <;> decide
  · decide

mutual

theorem Stm.is {doc : Token → Option Node} : ∀ {d : Nat} {n : Node} {ts : List Token}, Stm d n ts → Is doc (.stmt .done n) ts
  | _, _, _, .expr h he => by
    obtain ⟨k, r, e, h1, h2⟩ := h.first
    exact .exprStmt (.expr h.is h.bare) ⟨k, r, e, h1, (term_start h2).1⟩ he
  | _, _, _, .block hk hl hc hr ho hb hcc =>
    .while hk hl (.expr hc.is hc.bare) hr (.body (.blockStmt (.block ho hb.is (.inl rfl) hcc)))
  | _, _, _, .single hk hl hc hr hb => .while hk hl (.expr hc.is hc.bare) hr (.body hb.is)

theorem Stms.is {doc : Token → Option Node} : ∀ {d : Nat} {ns : List Node} {ts : List Token}, Stms d ns ts →
    Is doc (.stmts .done ns) ts
  | _, _, _, .nil => .noStmts
  | _, _, _, @Stms.cons _ n ns _ _ h hm => by
    have := Is.stmts (.top (h.is (doc := doc))) (hm.is (doc := doc)) (.inr trivial)
    unfold Syntax.lastTail at this
    simpa using this

end

mutual

theorem Stm.plain : ∀ {d : Nat} {n : Node} {ts : List Token}, Stm d n ts → ∀ k ∈ ts, Plain k
  | _, _, _, .expr h he => by
    intro k hk
    rcases List.mem_append.mp hk with hk | hk
    · exact (h.inner k hk).plain
    · rw [List.mem_singleton.mp hk]
      exact he.1
  | _, _, _, .block hk hl hc hr ho hb hcc => by
    intro k hm
    have h1 := hc.inner
    have h2 := hb.plain
    simp only [List.mem_cons, List.mem_append, List.not_mem_nil, or_false] at hm
    rcases hm with rfl | rfl | hm | rfl | rfl | hm | rfl
    · exact hk.1
    · exact hl.1
    · exact (h1 k hm).plain
    · exact hr.1
    · exact ho.1
    · exact h2 k hm
    · exact hcc.1
  | _, _, _, .single hk hl hc hr hb => by
    intro k hm
    have h1 := hc.inner
    have h2 := hb.plain
    simp only [List.mem_cons, List.mem_append] at hm
    rcases hm with rfl | rfl | hm | rfl | hm
    · exact hk.1
    · exact hl.1
    · exact (h1 k hm).plain
    · exact hr.1
    · exact h2 k hm

theorem Stms.plain : ∀ {d : Nat} {ns : List Node} {ts : List Token}, Stms d ns ts → ∀ k ∈ ts, Plain k
  | _, _, _, .nil => by simp
  | _, _, _, .cons h hm => by
    intro k hk
    have h1 := h.plain
    have h2 := hm.plain
    rcases List.mem_append.mp hk with hk | hk
    · exact h1 k hk
    · exact h2 k hk

end

theorem Stm.first {d : Nat} {n : Node} {ts : List Token} (h : Stm d n ts) :
    ∃ k r, ts = k :: r ∧ Plain k ∧ k.t ≠ .openCurly := by
  cases h with
  | expr h he =>
    obtain ⟨k, r, rfl, h1, h2⟩ := h.first
    exact ⟨k, _, rfl, h1, (term_start h2).2⟩
  | block hk hl hc hr ho hb hcc => exact ⟨_, _, rfl, hk.1, by rw [hk.2]; decide⟩
  | single hk hl hc hr hb => exact ⟨_, _, rfl, hk.1, by rw [hk.2]; decide⟩

/-! ## Places -/

/-- The tokens `l` stand behind the place `p`, the last one at `q`, with line comments and line breaks in between. -/
inductive Thread (ts : List Token) : Nat → List Token → Nat → Prop where
  | nil {p : Nat} : Thread ts p [] p
  | cons {p i q : Nat} {k : Token} {l : List Token} : p < i → Only ts (p + 1) i Soft → ts[i]? = some k → Thread ts i l q →
      Thread ts p (k :: l) q

theorem Thread.append {ts a b : List Token} : ∀ {p q : Nat}, Thread ts p (a ++ b) q →
    ∃ m, Thread ts p a m ∧ Thread ts m b q := by
  induction a with
  | nil => exact fun h => ⟨_, .nil, h⟩
  | cons k a ih =>
    intro p q h
    cases h with
    | cons h1 h2 h3 h4 =>
      obtain ⟨m, g1, g2⟩ := ih h4
      exact ⟨m, .cons h1 h2 h3 g1, g2⟩

theorem Thread.le {ts l : List Token} {p q : Nat} (h : Thread ts p l q) : p ≤ q := by
  induction h with
  | nil => omega
  | cons h1 _ _ _ ih => omega

theorem Thread.last {ts l : List Token} {p q : Nat} (h : Thread ts p l q) : (l = [] ∧ q = p) ∨ ∃ k ∈ l, ts[q]? = some k := by
  induction h with
  | nil => exact .inl ⟨rfl, rfl⟩
  | cons h1 h2 h3 h4 ih =>
    rcases ih with ⟨rfl, rfl⟩ | ⟨k, g1, g2⟩
    · exact .inr ⟨_, by simp, h3⟩
    · exact .inr ⟨k, by simp [g1], g2⟩

theorem plain_soft {k : Token} (h : Plain k) : ¬ Soft k.t := by
  have := h.solid
  unfold Parser.solid at this
  intro hs
  rcases hs with hs | hs <;> rw [hs] at this <;> revert this <;> decide

theorem Soft.trivia {t : TT} (h : Soft t) : Trivia t := h.elim .inl fun h => .inr (.inr h)

theorem Only.mono {ts : List Token} {a b a' b' : Nat} {p : TT → Prop} (h : Only ts a b p) (h1 : a ≤ a') (h2 : b' ≤ b) :
    Only ts a' b' p := fun i k g1 g2 g3 => h i k (by omega) (by omega) g3

theorem Only.imp {ts : List Token} {a b : Nat} {p q : TT → Prop} (h : Only ts a b p) (hpq : ∀ t, p t → q t) : Only ts a b q :=
  fun i k g1 g2 g3 => hpq _ (h i k g1 g2 g3)

theorem Only.join {ts : List Token} {a b c : Nat} {p : TT → Prop} (h : Only ts a b p) (h2 : Only ts b c p) : Only ts a c p := by
  intro i k g1 g2 g3
  by_cases hi : i < b
  · exact h i k g1 hi g3
  · exact h2 i k (by omega) g2 g3

theorem Only.single {ts : List Token} {a : Nat} {k : Token} {p : TT → Prop} (h : ts[a]? = some k) (hp : p k.t) :
    Only ts a (a + 1) p := by
  intro i x g1 g2 g3
  have : i = a := by omega
  subst this
  rw [h] at g3
  cases g3
  exact hp

/-- Behind a token within a statement there are only line breaks. -/
theorem Tidy.gap {ts : List Token} (h : Tidy ts) {p i : Nat} {k : Token} (hp : ts[p]? = some k) (hk : Inner k)
    (ho : Only ts (p + 1) i Soft) : Only ts (p + 1) i (· = .linebreak) := by
  intro j c h1 h2 h3
  rcases ho j c h1 h2 h3 with hc | hc
  · exact absurd (h p j k c (by omega) hp (plain_soft hk.plain) (ho.mono (by omega) (by omega)) h3 hc) hk.border
  · exact hc

theorem break_noLine {ts : List Token} {a b : Nat} (h : Only ts a b (· = .linebreak)) : Only ts a b (· ≠ .lineComment) :=
  h.imp fun t e => by rw [e]; decide

theorem inner_noLine {k : Token} (h : Inner k) : k.t ≠ .lineComment := fun e => plain_soft h.plain (.inl e)

/-- No line comment stands between such tokens. -/
theorem Thread.quiet {ts l : List Token} (ht : Tidy ts) {p q : Nat} {k : Token} (h : Thread ts p l q) (hp : ts[p]? = some k)
    (hk : Inner k) (hl : ∀ x ∈ l, Inner x) : Only ts p (q + 1) (· ≠ .lineComment) := by
  induction h generalizing k with
  | nil => exact .single hp (inner_noLine hk)
  | @cons p i q x l h1 h2 h3 h4 ih =>
    have g1 := break_noLine (ht.gap hp hk h2)
    have g2 := ih h3 (hl x (by simp)) (fun y hy => hl y (by simp [hy]))
    exact ((Only.single hp (p := (· ≠ .lineComment)) (inner_noLine hk)).join g1).join g2

/-- The stream of a program without comments other than line comments between its statements. -/
structure Stream (ts : List Token) : Prop where
  single : ∀ k ∈ ts, k.t ≠ .multilineComment
  tidy : Tidy ts
  broken : Broken ts

theorem Stream.at {ts : List Token} (h : Stream ts) {i : Nat} (hi : i < ts.length) : At ts i (· ≠ .multilineComment) :=
  ⟨ts[i], List.getElem?_eq_getElem hi, h.single _ (List.getElem_mem hi)⟩

theorem lt_of_get {ts : List Token} {i : Nat} {k : Token} (h : ts[i]? = some k) : i < ts.length :=
  (List.getElem?_eq_some_iff.mp h).1

/-- The line comment behind the end of a statement. -/
theorem Stream.tail {ts : List Token} (h : Stream ts) {q : Nat} (hq : q + 1 < ts.length) :
    ∃ b, q ≤ b ∧ b ≤ q + 1 ∧ Only ts (q + 1) (b + 1) (· = .lineComment) ∧
      ((At ts (q + 1) (· = .lineComment) ∧ b = q + 1) ∨ (At ts (q + 1) (· ≠ .lineComment) ∧ b = q)) ∧
      At ts (b + 1) (fun t => t ≠ .lineComment ∧ t ≠ .multilineComment) := by
  have h1 : ts[q + 1]? = some ts[q + 1] := List.getElem?_eq_getElem hq
  by_cases hc : ts[q + 1].t = .lineComment
  · refine ⟨q + 1, by omega, by omega, .single h1 hc, .inl ⟨⟨_, h1, hc⟩, rfl⟩, ?_⟩
    obtain ⟨k, g1, g2⟩ := h.broken _ _ h1 hc
    exact ⟨k, g1, by rw [g2]; decide, by rw [g2]; decide⟩
  · refine ⟨q, by omega, by omega, ?_, .inr ⟨⟨_, h1, hc⟩, rfl⟩, ⟨_, h1, hc, h.single _ (List.getElem_mem hq)⟩⟩
    intro i k g1 g2
    omega

theorem Stream.before {ts : List Token} (h : Stream ts) {i : Nat} (h0 : 0 < i) (hi : i < ts.length) : Before ts i i where
  pos := h0
  le := Nat.le_refl i
  front := h.at (by omega)
  comments := fun j k g1 g2 => by omega

/-- Where an expression lies. -/
theorem Term.lies {ts : List Token} {n : Node} {ls : List TT} {rs : List Rim} {us : List Token} (h : Term n ls rs us) :
    ∀ {p q : Nat}, Thread ts p us q → ∃ i, p < i ∧ i ≤ q ∧ Only ts (p + 1) i Soft ∧ Lies ts n i q ∧
      ∃ k l, us = k :: l ∧ ts[i]? = some k ∧ Thread ts i l q := by
  induction h with
  | literal h hk =>
    intro p q ht
    cases ht with
    | cons h1 h2 h3 h4 =>
      cases h4
      exact ⟨_, h1, Nat.le_refl _, h2, .literal h3, _, _, rfl, h3, .nil⟩
  | «variable» h =>
    intro p q ht
    cases ht with
    | cons h1 h2 h3 h4 =>
      cases h4
      exact ⟨_, h1, Nat.le_refl _, h2, .variable h3, _, _, rfl, h3, .nil⟩
  | @binary k ts' us l r ls ls' rs rs' hl hk hi hq hr hrs hls ihl ihr =>
    intro p q ht
    have ht0 := ht
    obtain ⟨m, t1, t2⟩ := ht.append
    obtain ⟨i, a1, a2, a3, a4, x, y, rfl, a5, a6⟩ := ihl t1
    cases t2 with
    | cons h1 h2 h3 h4 =>
      obtain ⟨j, b1, b2, b3, b4, _⟩ := ihr h4
      refine ⟨i, a1, by have := h4.le; omega, a3, .binary a4 b4 (by omega), x, y ++ k :: us, rfl, a5, ?_⟩
      have : ∀ {p q m : Nat} {a b : List Token}, Thread ts p a m → Thread ts m b q → Thread ts p (a ++ b) q := by
        intro p q m a b ha hb
        induction ha with
        | nil => exact hb
        | cons g1 g2 g3 _ ih => exact .cons g1 g2 g3 (ih hb)
      exact this a6 (.cons h1 h2 h3 h4)

/-- Where the head of a loop lies. -/
theorem head_laid {ts : List Token} (hs : Stream ts) {k lp rp : Token} {c : Node} {ls : List TT} {rs : List Rim}
    {cs us : List Token} (hk : Tok .kwWhile k) (hl : Tok .openParenthesis lp) (hc : Term c ls rs cs)
    (hr : Tok .closeParenthesis rp) {p q : Nat} (ht : Thread ts p (k :: lp :: (cs ++ rp :: us)) q) :
    ∃ w x, p < w ∧ Only ts (p + 1) w Soft ∧ ts[w]? = some k ∧ w < x ∧ ts[x]? = some rp ∧ Head ts True k lp rp c w x ∧
      Thread ts x us q := by
  cases ht with
  | @cons _ w _ _ _ w1 w2 w3 ht =>
    cases ht with
    | @cons _ o _ _ _ o1 o2 o3 ht =>
      obtain ⟨j, t1, t2⟩ := ht.append
      obtain ⟨i, a1, a2, a3, a4, y, l, rfl, a5, a6⟩ := hc.lies t1
      cases t2 with
      | @cons _ x _ _ _ x1 x2 x3 ht =>
        have ik : Inner k := inner_of hk (by unfold Border; decide)
        have il : Inner lp := inner_of hl (by unfold Border; decide)
        have hin := hc.inner
        have hlast : ∃ z : Token, ts[j]? = some z ∧ Inner z := by
          rcases t1.last with ⟨e, _⟩ | ⟨z, z1, z2⟩
          · cases e
          · exact ⟨z, z2, hin z z1⟩
        obtain ⟨z, z1, z2⟩ := hlast
        refine ⟨w, x, w1, w2, w3, by omega, x3, ⟨w, o, i, j, w3, o3, x3, hr.2, ?_, by omega, a1, x1, a4, hs.tidy.gap o3 il a3,
          hs.tidy.gap z1 z2 x2, ?_, ?_⟩, ht⟩
        · exact hs.before (by omega) (lt_of_get w3)
        · exact a6.quiet hs.tidy a5 (hin y (by simp)) (fun x hx => hin x (by simp [hx]))
        · intro _
          have g1 := break_noLine (hs.tidy.gap w3 ik o2)
          exact ((Only.single w3 (p := (· ≠ .lineComment)) (inner_noLine ik)).join g1).join
            (.single o3 (inner_noLine il))

mutual

/-- A statement lies in the stream. -/
theorem Stm.laid {ts : List Token} (hs : Stream ts) : ∀ {d : Nat} {n : Node} {us : List Token}, Stm d n us →
    ∀ {lvl p q : Nat}, lvl + d ≤ 255 → Thread ts p us q → q + 1 < ts.length →
    ∃ a b, Laid ts True lvl n a b ∧ p < a ∧ Only ts (p + 1) a Soft ∧ (∃ k : Token, ts[a]? = some k ∧ Plain k) ∧ a ≤ q ∧ q ≤ b ∧
      Only ts (q + 1) (b + 1) (· = .lineComment)
  | _, _, _, .expr h he, lvl, p, q, _, ht, hq => by
    obtain ⟨j, t1, t2⟩ := ht.append
    obtain ⟨i, a1, a2, a3, a4, y, l, rfl, a5, a6⟩ := h.lies t1
    have hin := h.inner
    cases t2 with
    | cons q1 q2 q3 t3 =>
      cases t3
      obtain ⟨b, b1, b2, b3, b4, b5⟩ := hs.tail hq
      have hlast : ∃ z : Token, ts[j]? = some z ∧ Inner z := by
        rcases t1.last with ⟨e, _⟩ | ⟨z, z1, z2⟩
        · cases e
        · exact ⟨z, z2, hin z z1⟩
      obtain ⟨z, z1, z2⟩ := hlast
      refine ⟨i, b, .expr a4 (hs.before (by omega) (lt_of_get a5)) ⟨q1, ?_, ⟨_, q3, he.2⟩, b4⟩ ?_, a1, a3,
        ⟨y, a5, (hin y (by simp)).plain⟩, by omega, b1, b3⟩
      · exact q2.imp fun t ht => by rcases ht with rfl | rfl <;> decide
      · intro _
        exact (a6.quiet hs.tidy a5 (hin y (by simp)) (fun x hx => hin x (by simp [hx]))).join
          (break_noLine (hs.tidy.gap z1 z2 q2))
  | _, _, _, @Stm.block d k lp rp oc cc cs us c ls rs ns hk hl hc hr ho hb hcc, lvl, p, q, hd, ht, hq => by
    obtain ⟨w, x, h1, h2, h3, h4, h5, h6, ht⟩ := head_laid hs hk hl hc hr ht
    cases ht with
    | @cons _ o _ _ _ o1 o2 o3 ht =>
      obtain ⟨m, t1, t2⟩ := ht.append
      cases t2 with
      | cons q1 q2 q3 t3 =>
        cases t3
        obtain ⟨b, b1, b2, b3, b4, b5⟩ := hs.tail hq
        have ir : Inner rp := inner_of hr (by unfold Border; decide)
        have hall := hb.laid hs (lvl := lvl + 1) (p := o) (q := m) (prev := o) (e := q) (by omega) t1 (Nat.le_refl o)
          (fun i k g1 g2 => by omega) q1 q2 ⟨cc, q3, plain_soft hcc.1⟩
        have hm := t1.le
        refine ⟨w, b, ?_, h1, h2, ⟨k, h3, hk.1⟩, by omega, b1, b3⟩
        have := Laid.block (quiet := True) (lvl := lvl) (f := b + 1) (by omega) h6 o1 (o2.imp fun _ => Soft.trivia) o3 ho.2
          (fun _ => break_noLine (hs.tidy.gap h5 ir o2)) hall q3 hcc.2 (by omega) (b3.imp fun _ => .inl) b5
        simpa using this
  | _, _, _, @Stm.single d k lp rp cs us c b' ls rs hk hl hc hr hb, lvl, p, q, hd, ht, hq => by
    obtain ⟨w, x, h1, h2, h3, h4, h5, h6, ht⟩ := head_laid hs hk hl hc hr ht
    obtain ⟨a, b, g1, g2, g3, ⟨y, y1, y2⟩, g4, g5, g6⟩ := hb.laid hs (lvl := lvl + 1) (by omega) ht hq
    obtain ⟨z, r, rfl, z1, z2⟩ := hb.first
    refine ⟨w, b, .single (by omega) h6 g2 (g3.imp fun _ => Soft.trivia) ?_ g1, h1, h2, ⟨k, h3, hk.1⟩, by omega, g5, g6⟩
    cases ht with
    | @cons _ i _ _ _ i1 i2 i3 i4 =>
      have : a = i := by
        rcases Nat.lt_trichotomy a i with hlt | rfl | hgt
        · exact absurd (i2 a y (by omega) hlt y1) (plain_soft y2)
        · rfl
        · exact absurd (g3 i z (by omega) hgt i3) (plain_soft z1)
      subst this
      refine ⟨z, i3, fun ht => ?_, z2⟩
      rcases ht with h | h | h
      · exact plain_soft z1 (.inl h)
      · exact hs.single z (List.mem_of_getElem? i3) h
      · exact plain_soft z1 (.inr h)

/-- Statements lie in the stream. -/
theorem Stms.laid {ts : List Token} (hs : Stream ts) : ∀ {d : Nat} {ns : List Node} {us : List Token}, Stms d ns us →
    ∀ {lvl p q prev e : Nat}, lvl + d ≤ 255 → Thread ts p us q → p ≤ prev → Only ts (p + 1) (prev + 1) (· = .lineComment) →
    q < e → Only ts (q + 1) e Soft → (∃ k : Token, ts[e]? = some k ∧ ¬ Soft k.t) → LaidAll ts True lvl ns prev e
  | _, _, _, .nil, lvl, p, q, prev, e, _, ht, h1, h2, h3, h4, ⟨k, k1, k2⟩ => by
    cases ht
    have hlt : prev < e := by
      rcases Nat.lt_or_ge prev e with h | h
      · exact h
      · exact absurd (.inl (h2 e k (by omega) (by omega) k1)) k2
    exact .nil hlt (Nat.le_of_lt (lt_of_get k1)) fun _ => (h4.mono (by omega) (Nat.le_refl _)).imp fun _ => Soft.trivia
  | _, _, _, .cons h hm, lvl, p, q, prev, e, hd, ht, h1, h2, h3, h4, ⟨k, k1, k2⟩ => by
    obtain ⟨m, t1, t2⟩ := ht.append
    have hmq := t2.le
    have hlen := lt_of_get k1
    obtain ⟨a, b, g1, g2, g3, ⟨y, y1, y2⟩, g4, g5, g6⟩ := h.laid hs hd t1 (by omega)
    have hlt : prev < a := by
      rcases Nat.lt_or_ge prev a with h | h
      · exact h
      · exact absurd (.inl (h2 a y (by omega) (by omega) y1)) (plain_soft y2)
    refine .cons g1 hlt ?_ (fun _ => (g3.mono (by omega) (Nat.le_refl _)).imp fun _ => Soft.trivia)
      (hm.laid hs hd t2 g5 g6 h3 h4 ⟨k, k1, k2⟩)
    rintro rfl
    have hi : prev + 1 < ts.length := by have := lt_of_get y1; omega
    have hx : ts[prev + 1]? = some ts[prev + 1] := List.getElem?_eq_getElem hi
    refine ⟨_, hx, ?_⟩
    rcases g3 _ _ (by omega) (by omega) hx with hc | hc
    · obtain ⟨z, z1, z2⟩ := hs.broken _ _ hx hc
      rw [y1] at z1
      cases z1
      exact absurd (.inr z2) (plain_soft y2)
    · exact hc

end

/-- The tokens of a stream without line comments and line breaks stand at places in their order. -/
theorem thread_of : ∀ (l pre : List Token) (p : Nat), p < pre.length → Only (pre ++ l) (p + 1) pre.length Soft →
    ∃ q, Thread (pre ++ l) p (strip l) q ∧ q < (pre ++ l).length ∧ Only (pre ++ l) (q + 1) (pre ++ l).length Soft
  | [], pre, p, hp, h => ⟨p, .nil, by simpa using hp, by simpa using h⟩
  | k :: r, pre, p, hp, h => by
    have hk : (pre ++ k :: r)[pre.length]? = some k := by simp
    have e : pre ++ k :: r = (pre ++ [k]) ++ r := by simp
    by_cases hs : (!(k.t == .lineComment || k.t == .linebreak)) = true
    · have hstrip : strip (k :: r) = k :: strip r := List.filter_cons_of_pos hs
      obtain ⟨q, h1, h2, h3⟩ := thread_of r (pre ++ [k]) pre.length (by simp) (fun i x g1 g2 => by simp at g2; omega)
      rw [← e] at h1 h2 h3
      exact ⟨q, hstrip ▸ .cons hp h hk h1, h2, h3⟩
    · have hstrip : strip (k :: r) = strip r := List.filter_cons_of_neg hs
      have hsoft : Soft k.t := by
        unfold Soft
        exact Classical.or_iff_not_imp_left.mpr (by simpa using hs)
      obtain ⟨q, h1, h2, h3⟩ := thread_of r (pre ++ [k]) p (by simp; omega) (by
        rw [← e, List.length_append]
        exact h.join (.single hk hsoft))
      rw [← e] at h1 h2 h3
      exact ⟨q, hstrip ▸ h1, h2, h3⟩

/-- A token that has a range is printed. -/
theorem plain_displayed {k : Token} (h : Plain k) : k.display.isSome = true := by
  obtain ⟨rg, h⟩ := h.range
  cases hd : k.display with
  | some _ => rfl
  | none =>
    unfold Token.range Token.end at h
    rw [hd] at h
    cases h

/-- A line comment is printed. -/
theorem comment_displayed {k : Token} (h : k.t = .lineComment) : k.display.isSome = true := by
  unfold Token.display
  rw [h]
  cases k.label <;> rfl

/-- **C71**, for programs.  For every text whose tokens are an opening tag, statements of the small grammar and the end of the
file, with line comments between statements only: the text is parsed without an error, and the formatter prints every token
once and in order, with only spaces and line breaks added, and nothing but comments behind a line comment. -/
theorem C71_program {U : Unicode} {t : Text} {s : Scanner.St} {tag eof : Token} {l : List Token} {ns : List Node} {n : Node}
    {d : Nat} (hscan : Scanner.scan U t = .ok s) (htoks : s.tokens = tag :: (l ++ [eof]))
    (htag : Tok .scriptStartRegular tag ∨ Tok .scriptStartShort tag) (heof : eof.t = .eof) (hst : Stms d (n :: ns) (strip l))
    (hd : d ≤ 255) (htidy : Tidy s.tokens) (hb : Broken s.tokens) :
    ∃ n0, ∀ m, n0 ≤ m → ∃ p, Parser.ast U m s.tokens = .ok (n :: ns) p ∧ p.errors = [] ∧
      ∃ ss text lines, astSpans s.tokens (n :: ns) 0 0 (s.tokens.length - 1) = some ss ∧ printed ss = some text ∧
        Prints (visible l) True text lines := by
  have hplain := hst.plain
  have hdis : Displayed (visible l) := by
    intro k hk
    obtain ⟨h1, h2⟩ := List.mem_filter.mp hk
    by_cases hc : k.t = .lineComment
    · exact comment_displayed hc
    · exact plain_displayed (hplain k (List.mem_filter.mpr ⟨h1, by simpa [hc] using h2⟩))
  have htag' : ∃ t0, Tok t0 tag ∧ t0 ∈ [TT.scriptStartRegular, .scriptStartShort] := by
    rcases htag with h | h
    · exact ⟨_, h, by decide⟩
    · exact ⟨_, h, by decide⟩
  obtain ⟨t0, ht0, ht1⟩ := htag'
  have hstream : Stream s.tokens := by
    refine ⟨?_, htidy, hb⟩
    intro k hk hm
    rw [htoks] at hk
    simp only [List.mem_cons, List.mem_append, List.not_mem_nil, or_false] at hk
    have hsolid : ∀ k : Token, Plain k → k.t ≠ .multilineComment := by
      intro k hk e
      have := hk.solid
      unfold Parser.solid at this
      rw [e] at this
      revert this
      decide
    rcases hk with rfl | hk | rfl
    · exact hsolid k ht0.1 hm
    · exact hsolid k (hplain k (List.mem_filter.mpr ⟨hk, by rw [hm]; decide⟩)) hm
    · rw [heof] at hm
      cases hm
  have hstripAll : strip s.tokens = tag :: (strip l ++ [eof]) := by
    rw [htoks]
    have h1 : (!(tag.t == .lineComment || tag.t == .linebreak)) = true := by
      have := plain_soft ht0.1
      unfold Soft at this
      simpa using this
    unfold strip
    rw [List.filter_cons_of_pos (p := fun k : Token => !(k.t == .lineComment || k.t == .linebreak)) h1, List.filter_append]
    congr 2
    exact List.filter_cons_of_pos (by rw [heof]; decide)
  have hprog : Syntax.Program (DocBlock.docNode U) (strip s.tokens) (n :: ns) := by
    rw [hstripAll]
    exact .statements ht0 ht1 hst.is (.inl rfl) heof
  obtain ⟨q, h1, h2, h3⟩ := thread_of l [tag] 0 (by simp) (fun i k g1 g2 => by simp at g2; omega)
  have hts : s.tokens = ([tag] ++ l) ++ [eof] := by rw [htoks]; rfl
  have hext : ∀ {i : Nat} {k : Token}, ([tag] ++ l)[i]? = some k → s.tokens[i]? = some k := by
    intro i k h
    rw [hts, List.getElem?_append_left (lt_of_get h)]
    exact h
  have hback : ∀ {i : Nat} {k : Token}, i < ([tag] ++ l).length → s.tokens[i]? = some k → ([tag] ++ l)[i]? = some k := by
    intro i k hi h
    rw [hts, List.getElem?_append_left hi] at h
    exact h
  have honly : ∀ {a b : Nat}, b ≤ ([tag] ++ l).length → Only ([tag] ++ l) a b Soft → Only s.tokens a b Soft :=
    fun hb h i k g1 g2 g3 => h i k g1 g2 (hback (by omega) g3)
  have hthread : Thread s.tokens 0 (strip l) q := by
    generalize 0 = z at h1
    clear h2 h3 hst hplain hprog hstripAll
    generalize strip l = u at h1
    induction h1 with
    | nil => exact .nil
    | cons g1 g2 g3 g4 ih => exact .cons g1 (honly (Nat.le_of_lt (lt_of_get g3)) g2) (hext g3) ih
  have hlen : s.tokens.length - 1 = ([tag] ++ l).length := by rw [hts]; simp
  have hlaid : LaidAll s.tokens True 0 (n :: ns) 0 (s.tokens.length - 1) := by
    rw [hlen]
    refine hst.laid hstream (by omega) hthread (Nat.le_refl 0) (fun i k g1 g2 => by omega) h2 (honly (Nat.le_refl _) h3)
      ⟨eof, ?_, ?_⟩
    · rw [hts]
      simp
    · rw [heof]
      unfold Soft
      decide
  have hpart : part s.tokens 1 (s.tokens.length - 1) = l := by
    rw [hlen, hts]
    unfold part
    rw [List.take_left']
    · rfl
    · rfl
  obtain ⟨n0, hn⟩ := Syntax.C67_text hscan hprog
  refine ⟨n0, fun m hm => ?_⟩
  obtain ⟨p, p1, p2⟩ := hn m hm
  obtain ⟨ss, text, lines, g1, g2, g3⟩ := C71_kept (C71_indexed U t s hscan) hlaid (by rw [hpart]; exact hdis)
  rw [hpart] at g3
  exact ⟨p, p1, p2, ss, text, lines, g1, g2, g3⟩

/-! ## A sample -/

/-- A check of `Tidy`: the flag says whether the last token that is neither a line comment nor a line break is one of those
between statements. -/
def tidyFrom : Bool → List Token → Bool
  | _, [] => true
  | ok, k :: r =>
    if k.t = .lineComment then ok && tidyFrom ok r
    else if k.t = .linebreak then tidyFrom ok r
    else tidyFrom (decide (k.t ∈ [TT.semicolon, .openCurly, .closeCurly, .scriptStartRegular, .scriptStartShort])) r

theorem tidyFrom_ok {ok : Bool} {ts : List Token} (h : tidyFrom ok ts = true) {j : Nat} {c : Token} (ho : Only ts 0 j Soft)
    (hj : ts[j]? = some c) (hc : c.t = .lineComment) : ok = true := by
  induction ts generalizing j with
  | nil => simp at hj
  | cons k r ih =>
    unfold tidyFrom at h
    cases j with
    | zero =>
      obtain rfl : k = c := by simpa using hj
      rw [if_pos hc] at h
      exact (Bool.and_eq_true_iff.mp h).1
    | succ j =>
      have hr : Only r 0 j Soft := fun i x _ h2 h3 => ho (i + 1) x (Nat.zero_le _) (by omega) (by simpa using h3)
      have hj' : r[j]? = some c := by simpa using hj
      rcases ho 0 k (Nat.le_refl _) (by omega) rfl with e | e
      · rw [if_pos e] at h
        exact (Bool.and_eq_true_iff.mp h).1
      · rw [if_neg (by rw [e]; decide), if_pos e] at h
        exact ih h hr hj'

theorem tidyFrom_tidy {ok : Bool} {ts : List Token} (h : tidyFrom ok ts = true) : Tidy ts := by
  intro i j k c hij hi hk ho hj hc
  induction ts generalizing ok i j with
  | nil => simp at hi
  | cons x r ih =>
    obtain ⟨j, rfl⟩ : ∃ m, j = m + 1 := ⟨j - 1, by omega⟩
    have hj' : r[j]? = some c := by simpa using hj
    cases i with
    | zero =>
      obtain rfl : x = k := by simpa using hi
      unfold tidyFrom at h
      rw [if_neg (fun e => hk (.inl e)), if_neg (fun e => hk (.inr e))] at h
      have := tidyFrom_ok h (fun i y _ h2 h3 => ho (i + 1) y (by omega) (by omega) (by simpa using h3)) hj' hc
      have this := of_decide_eq_true this
      exact this
    | succ i =>
      have hrest : ∃ ok', tidyFrom ok' r = true := by
        unfold tidyFrom at h
        split at h
        · exact ⟨_, (Bool.and_eq_true_iff.mp h).2⟩
        · split at h
          · exact ⟨_, h⟩
          · exact ⟨_, h⟩
      obtain ⟨ok', h'⟩ := hrest
      exact ih h' i j (by omega) (by simpa using hi)
        (fun a y h1 h2 h3 => ho (a + 1) y (by omega) (by omega) (by simpa using h3)) hj'

/-- A check of `Broken`. -/
def brokenFrom : List Token → Bool
  | [] => true
  | k :: r => (k.t != .lineComment || (match r with | [] => false | x :: _ => x.t == .linebreak)) && brokenFrom r

theorem brokenFrom_broken {ts : List Token} (h : brokenFrom ts = true) : Broken ts := by
  intro i k hi hk
  induction ts generalizing i with
  | nil => simp at hi
  | cons x r ih =>
    unfold brokenFrom at h
    obtain ⟨h1, h2⟩ := Bool.and_eq_true_iff.mp h
    cases i with
    | zero =>
      obtain rfl : x = k := by simpa using hi
      cases r with
      | nil => simp [hk] at h1
      | cons y r => exact ⟨y, rfl, by simpa [hk] using h1⟩
    | succ i =>
      obtain ⟨y, hy1, hy2⟩ := ih h2 i (by simpa using hi)
      exact ⟨y, by simpa using hy1, hy2⟩

/-- A program with comments of all the places that are allowed. -/
def programText : Text := c!"<?php\n// one\nwhile ($a == 1) { // two\n$b = 2 * $c;  // three\n// four\n}  // five\n$d = 3;\n"

def programTokens : List Token :=
  match Scanner.scan Unicode.ascii programText with
  | .ok s => s.tokens
  | _ => []

def programTypes : List TT :=
  [.kwWhile, .openParenthesis, .variable, .isEqual, .longNumber, .closeParenthesis, .openCurly, .variable, .assignment,
    .longNumber, .multiplication, .variable, .semicolon, .closeCurly, .variable, .assignment, .longNumber, .semicolon]

theorem program_shape : programTokens.map (·.t) ≠ [] ∧
    programTokens = programTokens.headD ⟨0, 0, .eof, none, none⟩ ::
      (programTokens.tail.dropLast ++ [programTokens.getLastD ⟨0, 0, .missing, none, none⟩]) ∧
    (programTokens.headD ⟨0, 0, .eof, none, none⟩).t = .scriptStartRegular ∧
    (programTokens.headD ⟨0, 0, .eof, none, none⟩).range.isSome = true ∧
    (programTokens.getLastD ⟨0, 0, .missing, none, none⟩).t = .eof := by
  decide +kernel

theorem program_types : (strip programTokens.tail.dropLast).map (·.t) = programTypes := by decide +kernel

theorem program_plain : (strip programTokens.tail.dropLast).all (fun k => Parser.solid k && k.range.isSome) = true := by
  decide +kernel

theorem program_labels : (strip programTokens.tail.dropLast).all (fun k => k.t != .variable || k.label.isSome) = true := by
  decide +kernel

theorem program_abstract {k : Nat → Token} (ht : ∀ i, i < 18 → Tok (programTypes.getD i .eof) (k i))
    (hv : ∀ i, i < 18 → programTypes.getD i .eof = .variable → (k i).label.isSome = true) :
    ∃ n n', Stms 1 [n, n'] ((List.range 18).map k) := by
  have tk : ∀ i, (h : i < 18 := by decide) → Tok (programTypes.getD i .eof) (k i) := fun i h => ht i h
  have var : ∀ i, (h : i < 18 ∧ programTypes.getD i .eof = .variable := by decide) → Term (.variable (k i)) [] [] [k i] := by
    intro i h
    have h1 := ht i h.1
    rw [h.2] at h1
    exact .variable ⟨h1, hv i h.1 h.2⟩
  have lit : ∀ i, (h : i < 18 ∧ programTypes.getD i .eof ∈ Parser.literalSet := by decide) → Term (.literal (k i)) [] [] [k i] := by
    intro i h
    have h1 := ht i h.1
    exact .literal h1.1 (by rw [h1.2]; exact h.2)
  have op : ∀ i (l r : Node) (ls ls' : List TT) (rs rs' : List Rim) (ts us : List Token),
      (h : i < 18 ∧ (infixLevel (programTypes.getD i .eof)).isSome = true ∧ programTypes.getD i .eof ≠ .questionMark) →
      Term l ls rs ts → Term r ls' rs' us → (∀ o ∈ rs, ¬ o.Admits (programTypes.getD i .eof)) →
      (∀ t ∈ ls', (Ex.Edge.inf (programTypes.getD i .eof)).Admits t) →
      Term (.binary l (k i) r) (programTypes.getD i .eof :: ls) (.op (.inf (programTypes.getD i .eof)) :: rs') (ts ++ k i :: us) := by
    intro i l r ls ls' rs rs' ts us h hl hr h1 h2
    have hk := ht i h.1
    rw [← hk.2] at h h1 h2 ⊢
    exact .binary hl hk.1 h.2.1 h.2.2 hr h1 h2
  have e1 := op 3 _ _ _ _ _ _ _ _ (by decide) (var 2) (lit 4) (by simp) (by simp)
  have e2 := op 10 _ _ _ _ _ _ _ _ (by decide) (lit 9) (var 11) (by simp) (by simp)
  have e3 := op 8 _ _ _ _ _ _ _ _ (by decide) (var 7) e2 (by simp) (by
    intro t h
    rw [List.mem_singleton] at h
    subst h
    exact ⟨_, _, rfl, rfl, by decide⟩)
  have e4 := op 15 _ _ _ _ _ _ _ _ (by decide) (var 14) (lit 16) (by simp) (by simp)
  have s1 : Stm 0 _ _ := .expr e3 (tk 12)
  have s2 : Stm 1 _ _ := .block (tk 0) (tk 1) e1 (tk 5) (tk 6) (.cons s1 .nil) (tk 13)
  have s3 : Stm 1 _ _ := .expr e4 (tk 17)
  exact ⟨_, _, .cons s2 (.cons s3 .nil)⟩

theorem program_of {l : List Token} (h1 : l.map (·.t) = programTypes) (h2 : l.all (fun k => Parser.solid k && k.range.isSome) = true)
    (h3 : l.all (fun k => k.t != .variable || k.label.isSome) = true) : ∃ n n', Stms 1 [n, n'] l := by
  have hlen : l.length = 18 := by
    rw [← List.length_map (as := l) (f := (·.t)), h1]
    rfl
  have hl : l = (List.range 18).map fun i => l.getD i ⟨0, 0, .eof, none, none⟩ := by
    apply List.ext_getElem
    · simp [hlen]
    · intro i g1 g2
      simp [List.getElem?_eq_getElem g1]
  have hk : ∀ i, i < 18 → (l.getD i ⟨0, 0, .eof, none, none⟩).t = programTypes.getD i .eof ∧
      l.getD i ⟨0, 0, .eof, none, none⟩ ∈ l := by
    intro i hi
    rw [← h1]
    have g : i < l.length := by omega
    simp [List.getElem?_eq_getElem g]
  have hne : ∀ i, i < 18 → programTypes.getD i .eof ≠ .eof := by decide
  rw [hl]
  refine program_abstract ?_ ?_
  · intro i hi
    obtain ⟨a, b⟩ := hk i hi
    have hp := List.all_eq_true.1 h2 _ b
    rw [Bool.and_eq_true] at hp
    exact ⟨⟨hp.1, by rw [a]; exact hne i hi, Option.isSome_iff_exists.1 hp.2⟩, a⟩
  · intro i hi e
    obtain ⟨a, b⟩ := hk i hi
    have hp := List.all_eq_true.1 h3 _ b
    rw [a, e] at hp
    exact hp

/-- The sample meets the hypotheses of `C71_program`. -/
example : ∃ n0, ∀ m, n0 ≤ m → ∃ n n' p, Parser.ast Unicode.ascii m programTokens = .ok [n, n'] p ∧ p.errors = [] ∧
    ∃ ss text lines, astSpans programTokens [n, n'] 0 0 (programTokens.length - 1) = some ss ∧ printed ss = some text ∧
      Prints (visible programTokens.tail.dropLast) True text lines := by
  obtain ⟨n, n', h⟩ := program_of program_types program_plain program_labels
  obtain ⟨h0, h1, h2, h3, h4⟩ := program_shape
  have ht : Tidy programTokens := tidyFrom_tidy (ok := true) (by decide +kernel)
  have hb : Broken programTokens := brokenFrom_broken (by decide +kernel)
  have hs : ∃ s, Scanner.scan Unicode.ascii programText = .ok s ∧ s.tokens = programTokens := by
    unfold programTokens at h0 ⊢
    split at h0
    · rename_i s hs
      exact ⟨s, hs, rfl⟩
    · exact absurd rfl h0
  obtain ⟨s, hs, e⟩ := hs
  rw [← e] at ht hb
  have htag : Tok .scriptStartRegular (programTokens.headD ⟨0, 0, .eof, none, none⟩) :=
    ⟨⟨by unfold Parser.solid; rw [h2]; decide, by rw [h2]; decide, Option.isSome_iff_exists.1 h3⟩, h2⟩
  obtain ⟨n0, hn⟩ := C71_program hs (e.trans h1) (.inl htag) h4 h (by omega) ht hb
  refine ⟨n0, fun m hm => ?_⟩
  obtain ⟨p, hp⟩ := hn m hm
  rw [e] at hp
  exact ⟨n, n', p, hp⟩

end Spans

end PhpLs
