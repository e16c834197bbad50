import Verif.Spans

/-!
# Which tokens the spans hold

Lemmas about the model of the formatter by spans (`Verif/Spans.lean`): which tokens of the stream end up in the spans of an
expression, of a statement and of a list of statements.
-/

namespace PhpLs

namespace Spans

/-- Every token knows its index in the stream. -/
def Indexed (ts : List Token) : Prop := ∀ (i : Nat) (k : Token), ts[i]? = some k → k.offset = some i

/-- The tokens from `a` up to, but not including `b`. -/
def part (ts : List Token) (a b : Nat) : List Token := (ts.take b).drop a

/-- Tokens that are shown. -/
def visible (l : List Token) : List Token := l.filter (·.t != .linebreak)

/-- The tokens of chunks. -/
def chunkToks (cs : List Chunk) : List Token := cs.flatMap (·.tokens)

/-- The tokens of a span. -/
def Span.toks (s : Span) : List Token := chunkToks s.chunks

/-- The tokens of spans. -/
def allToks (ss : List Span) : List Token := ss.flatMap Span.toks

/-- A token with a type. -/
def At (ts : List Token) (i : Nat) (p : TT → Prop) : Prop := ∃ k : Token, ts[i]? = some k ∧ p k.t

/-- All tokens from `a` up to `b`. -/
def Only (ts : List Token) (a b : Nat) (p : TT → Prop) : Prop :=
  ∀ (i : Nat) (k : Token), a ≤ i → i < b → ts[i]? = some k → p k.t

/-! ## Parts -/

theorem slice_part {ts : List Token} {a b : Nat} (h1 : a ≤ b) (h2 : b ≤ ts.length) : slice ts a b = some (part ts a b) :=
  if_pos ⟨h1, h2⟩

theorem part_append (ts : List Token) {a b c : Nat} (h1 : a ≤ b) (h2 : b ≤ c) : part ts a b ++ part ts b c = part ts a c := by
  unfold part
  have : ts.take b = (ts.take c).take b := by rw [List.take_take, Nat.min_eq_left h2]
  have h3 : (ts.take c).drop b = ((ts.take c).drop a).drop (b - a) := by
    rw [List.drop_drop, show a + (b - a) = b by omega]
  rw [this, List.drop_take, h3, List.take_append_drop]

theorem part_self (ts : List Token) (a : Nat) : part ts a a = [] := by
  unfold part
  exact List.drop_eq_nil_of_le (by rw [List.length_take]; omega)

theorem part_getElem? (ts : List Token) {a b : Nat} (i : Nat) (h : a + i < b) : (part ts a b)[i]? = ts[a + i]? := by
  unfold part
  rw [List.getElem?_drop, List.getElem?_take, if_pos h]

theorem part_length {ts : List Token} {a b : Nat} (h2 : b ≤ ts.length) : (part ts a b).length = b - a := by
  unfold part
  rw [List.length_drop, List.length_take, Nat.min_eq_left h2]

theorem part_head? (ts : List Token) {a b : Nat} (h1 : a < b) : (part ts a b).head? = ts[a]? := by
  rw [List.head?_eq_getElem?, part_getElem? ts 0 h1]
  rfl

theorem part_getLast? {ts : List Token} {a b : Nat} (h1 : a < b) (h2 : b ≤ ts.length) :
    (part ts a b).getLast? = ts[b - 1]? := by
  rw [List.getLast?_eq_getElem?, part_length h2, part_getElem? ts _ (by omega)]
  congr 1
  omega

theorem part_one {ts : List Token} {i : Nat} {k : Token} (h : ts[i]? = some k) : part ts i (i + 1) = [k] := by
  have hl := (List.getElem?_eq_some_iff.mp h).1
  have := part_length (ts := ts) (a := i) (b := i + 1) (by omega)
  match hp : part ts i (i + 1), this with
  | [x], _ =>
    have h2 := part_getElem? ts (a := i) (b := i + 1) 0 (by omega)
    rw [hp, Nat.add_zero, h] at h2
    rw [Option.some.inj h2]
  | [], h3 => simp at h3
  | _ :: _ :: _, h3 => simp at h3

theorem part_cons {ts : List Token} {i b : Nat} {k : Token} (h : ts[i]? = some k) (hb : i < b) :
    part ts i b = k :: part ts (i + 1) b := by
  rw [← part_append ts (Nat.le_succ i) hb, part_one h]
  rfl

/-- A token of a part stands in the stream. -/
theorem part_mem {ts : List Token} {a b : Nat} {k : Token} (h : k ∈ part ts a b) : ∃ i, a ≤ i ∧ i < b ∧ ts[i]? = some k := by
  obtain ⟨i, hi⟩ := List.mem_iff_getElem?.mp h
  unfold part at hi
  rw [List.getElem?_drop, List.getElem?_take] at hi
  by_cases hb : a + i < b
  · rw [if_pos hb] at hi
    exact ⟨a + i, Nat.le_add_right .., hb, hi⟩
  · rw [if_neg hb] at hi
    cases hi

theorem Only.part {ts : List Token} {a b : Nat} {p : TT → Prop} (h : Only ts a b p) : ∀ k ∈ part ts a b, p k.t := by
  intro k hk
  obtain ⟨i, h1, h2, h3⟩ := part_mem hk
  exact h i k h1 h2 h3

theorem part_none {ts : List Token} {a b : Nat} (p : Token → Bool) (h : ∀ k ∈ part ts a b, p k = false) :
    (part ts a b).find? p = none := by
  rw [List.find?_eq_none]
  intro k hk
  rw [h k hk]
  exact Bool.false_ne_true

/-- The first token that matches. -/
theorem part_find? {ts : List Token} {a i b : Nat} {k : Token} (p : Token → Bool) (ha : a ≤ i) (hb : i < b)
    (hk : ts[i]? = some k) (hp : p k = true) (hn : ∀ x ∈ part ts a i, p x = false) : (part ts a b).find? p = some k := by
  rw [← part_append ts ha (Nat.le_of_lt hb), List.find?_append, part_none p hn, part_cons hk hb]
  simp [hp]

theorem nextThat_eq {ts : List Token} (hi : Indexed ts) {a i : Nat} {k : Token} (p : Token → Bool) (ha : a < i)
    (hk : ts[i]? = some k) (hp : p k = true) (hn : ∀ x ∈ part ts (a + 1) i, p x = false) : nextThat a ts p = some i := by
  have hl := (List.getElem?_eq_some_iff.mp hk).1
  unfold nextThat
  rw [slice_part (by omega) (Nat.le_refl _)]
  simp only [Option.bind_eq_bind, Option.bind_some]
  rw [part_find? p (by omega) hl hk hp hn]
  exact hi i k hk

theorem prevThat_eq {ts : List Token} (hi : Indexed ts) {a i : Nat} {k : Token} (p : Token → Bool) (ha : a < i)
    (hl : i ≤ ts.length) (hk : ts[a]? = some k) (hp : p k = true) (hn : ∀ x ∈ part ts (a + 1) i, p x = false) :
    prevThat i ts p = some a := by
  unfold prevThat
  rw [slice_part (by omega) hl]
  simp only [Option.bind_eq_bind, Option.bind_some]
  rw [← part_append ts (Nat.zero_le a) (Nat.le_of_lt ha), part_cons hk ha, List.reverse_append, List.reverse_cons,
    List.find?_append, List.find?_append]
  have : (part ts (a + 1) i).reverse.find? p = none := by
    rw [List.find?_eq_none]
    intro x hx
    rw [hn x (List.mem_reverse.mp hx)]
    exact Bool.false_ne_true
  rw [this]
  simp [hp]
  exact hi a k hk

theorem visible_append (a b : List Token) : visible (a ++ b) = visible a ++ visible b := List.filter_append ..

theorem visible_nil {l : List Token} (h : ∀ k ∈ l, k.t = .linebreak) : visible l = [] := by
  unfold visible
  rw [List.filter_eq_nil_iff]
  intro k hk
  rw [h k hk]
  decide

theorem allToks_append (a b : List Span) : allToks (a ++ b) = allToks a ++ allToks b := List.flatMap_append

theorem chunkToks_append (a b : List Chunk) : chunkToks (a ++ b) = chunkToks a ++ chunkToks b := List.flatMap_append

/-! ## Edges -/

/-- A span that may be extended: all of its chunks, and those of its inner spans, hold tokens. -/
inductive Solid : Span → Prop where
  | mk {cs : List Chunk} {ss : List Span} {lvl : Nat} {b : Bool} : cs ≠ [] → (∀ c ∈ cs, c.tokens ≠ []) → (∀ s ∈ ss, Solid s) →
      Solid (.mk cs ss lvl b)

theorem chunkToks_head? {cs : List Chunk} (h : ∀ c ∈ cs, c.tokens ≠ []) :
    (chunkToks cs).head? = cs.head?.bind (·.tokens.head?) := by
  cases cs with
  | nil => rfl
  | cons c r =>
    have := h c (List.mem_cons_self ..)
    change (c.tokens ++ chunkToks r).head? = c.tokens.head?
    cases hc : c.tokens with
    | nil => exact absurd hc this
    | cons k q => rfl

theorem chunkToks_getLast? {cs : List Chunk} (h : ∀ c ∈ cs, c.tokens ≠ []) :
    (chunkToks cs).getLast? = cs.getLast?.bind (·.tokens.getLast?) := by
  rcases List.eq_nil_or_concat cs with rfl | ⟨l, c, rfl⟩
  · rfl
  · have := h c (by simp)
    rw [List.concat_eq_append, chunkToks_append, List.getLast?_append, List.getLast?_append]
    change ((chunkToks [c]).getLast?.or _) = c.tokens.getLast?
    rw [show chunkToks [c] = c.tokens from List.append_nil _]
    cases hc : c.tokens.getLast? with
    | none => exact absurd (List.getLast?_eq_none_iff.mp hc) this
    | some k => rfl

theorem Solid.leftOffset {s : Span} (h : Solid s) : s.leftOffset = s.toks.head?.bind (·.offset) := by
  cases h with
  | @mk cs ss lvl b h1 h2 h3 =>
    change (cs.head?.bind fun c => c.tokens.head?.bind (·.offset)) = (chunkToks cs).head?.bind (·.offset)
    rw [chunkToks_head? h2]
    cases cs.head? <;> rfl

theorem Solid.rightOffset {s : Span} (h : Solid s) : s.rightOffset = s.toks.getLast?.bind (·.offset) := by
  cases h with
  | @mk cs ss lvl b h1 h2 h3 =>
    change (cs.getLast?.bind fun c => c.tokens.getLast?.bind (·.offset)) = (chunkToks cs).getLast?.bind (·.offset)
    rw [chunkToks_getLast? h2]
    cases cs.getLast? <;> rfl

theorem Solid.toks_ne {s : Span} (h : Solid s) : s.toks ≠ [] := by
  cases h with
  | @mk cs ss lvl b h1 h2 h3 =>
    cases cs with
    | nil => exact absurd rfl h1
    | cons c r =>
      intro h4
      exact h2 c (List.mem_cons_self ..) (List.append_eq_nil_iff.mp h4).1

theorem Solid.chunks_ne {s : Span} (h : Solid s) : s.chunks ≠ [] := by
  cases h with
  | @mk cs ss lvl b h1 h2 h3 => exact h1

theorem Solid.full {s : Span} (h : Solid s) : ∀ c ∈ s.chunks, c.tokens ≠ [] := by
  cases h with
  | @mk cs ss lvl b h1 h2 h3 => exact h2

theorem Solid.leaf {c : Chunk} {lvl : Nat} (h : c.tokens ≠ []) : Solid (.leaf [c] lvl) :=
  .mk (by simp) (by simpa using h) (by simp)

/-! ## Extending -/

theorem extendLast_spec (ts : List Token) : ∀ cs : List Chunk, cs ≠ [] → (∀ c ∈ cs, c.tokens ≠ []) →
    ∃ cs', extendLast ts cs = some cs' ∧ cs' ≠ [] ∧ (∀ c ∈ cs', c.tokens ≠ []) ∧ chunkToks cs' = chunkToks cs ++ ts
  | [], h, _ => absurd rfl h
  | [c], _, h2 => ⟨_, rfl, by simp, by
      intro x hx
      rw [List.mem_singleton.mp hx]
      have := h2 c (by simp)
      intro h4
      exact this (List.append_eq_nil_iff.mp h4).1, by
      simp [chunkToks]⟩
  | c :: d :: r, _, h2 => by
    obtain ⟨cs', e1, e2, e3, e4⟩ := extendLast_spec ts (d :: r) (by simp) (fun x hx => h2 x (List.mem_cons_of_mem _ hx))
    refine ⟨c :: cs', ?_, by simp, ?_, ?_⟩
    · change (extendLast ts (d :: r) >>= fun r' => pure (c :: r')) = _
      rw [e1]
      rfl
    · intro x hx
      rcases List.mem_cons.mp hx with rfl | hx
      · exact h2 _ (by simp)
      · exact e3 x hx
    · change c.tokens ++ chunkToks cs' = (c.tokens ++ chunkToks (d :: r)) ++ ts
      rw [e4, List.append_assoc]

theorem extendFirst_spec (ts : List Token) (cs : List Chunk) (h1 : cs ≠ []) (h2 : ∀ c ∈ cs, c.tokens ≠ []) :
    ∃ cs', extendFirst ts cs = some cs' ∧ cs' ≠ [] ∧ (∀ c ∈ cs', c.tokens ≠ []) ∧ chunkToks cs' = ts ++ chunkToks cs := by
  cases cs with
  | nil => exact absurd rfl h1
  | cons c r =>
    refine ⟨_, rfl, by simp, ?_, ?_⟩
    · intro x hx
      rcases List.mem_cons.mp hx with rfl | hx
      · intro h4
        exact h2 c (by simp) (List.append_eq_nil_iff.mp h4).2
      · exact h2 x (List.mem_cons_of_mem _ hx)
    · simp [chunkToks]

mutual

theorem rightExtend_solid (ts : List Token) : ∀ s : Span, Solid s →
    ∃ s', s.rightExtend ts = some s' ∧ Solid s' ∧ s'.toks = s.toks ++ ts
  | .mk cs ss lvl b, h => by
    cases h with
    | mk h1 h2 h3 =>
      obtain ⟨cs', e1, e2, e3, e4⟩ := extendLast_spec ts cs h1 h2
      obtain ⟨ss', f1, f2⟩ := rightExtendLast_solid ts ss h3
      refine ⟨.mk cs' ss' lvl b, ?_, .mk e2 e3 f2, e4⟩
      rw [Span.rightExtend, e1, f1]
      rfl

theorem rightExtendLast_solid (ts : List Token) : ∀ ss : List Span, (∀ s ∈ ss, Solid s) →
    ∃ ss', rightExtendLast ts ss = some ss' ∧ ∀ s ∈ ss', Solid s
  | [], _ => ⟨[], by rw [rightExtendLast], by simp⟩
  | [s], h => by
    obtain ⟨s', e1, e2, _⟩ := rightExtend_solid ts s (h s (by simp))
    refine ⟨[s'], ?_, by simpa using e2⟩
    rw [rightExtendLast, e1]
    rfl
  | s :: s2 :: r, h => by
    obtain ⟨r', e1, e2⟩ := rightExtendLast_solid ts (s2 :: r) (fun x hx => h x (List.mem_cons_of_mem _ hx))
    refine ⟨s :: r', ?_, ?_⟩
    · rw [rightExtendLast, e1]
      rfl
    · intro x hx
      rcases List.mem_cons.mp hx with rfl | hx
      · exact h _ (by simp)
      · exact e2 x hx

end

mutual

theorem leftExtend_solid (ts : List Token) : ∀ s : Span, Solid s →
    ∃ s', s.leftExtend ts = some s' ∧ Solid s' ∧ s'.toks = ts ++ s.toks
  | .mk cs ss lvl b, h => by
    cases h with
    | mk h1 h2 h3 =>
      obtain ⟨cs', e1, e2, e3, e4⟩ := extendFirst_spec ts cs h1 h2
      obtain ⟨ss', f1, f2⟩ := leftExtendFirst_solid ts ss h3
      refine ⟨.mk cs' ss' lvl b, ?_, .mk e2 e3 f2, e4⟩
      rw [Span.leftExtend, e1, f1]
      rfl

theorem leftExtendFirst_solid (ts : List Token) : ∀ ss : List Span, (∀ s ∈ ss, Solid s) →
    ∃ ss', leftExtendFirst ts ss = some ss' ∧ ∀ s ∈ ss', Solid s
  | [], _ => ⟨[], by rw [leftExtendFirst], by simp⟩
  | s :: r, h => by
    obtain ⟨s', e1, e2, _⟩ := leftExtend_solid ts s (h s (by simp))
    refine ⟨s' :: r, ?_, ?_⟩
    · rw [leftExtendFirst, e1]
      rfl
    · intro x hx
      rcases List.mem_cons.mp hx with rfl | hx
      · exact e2
      · exact h x (List.mem_cons_of_mem _ hx)

end

/-! ## Expressions -/

/-- An expression that lies in the stream: its first token stands at `i`, its last one at `j`. -/
inductive Lies (ts : List Token) : Node → Nat → Nat → Prop where
  | literal {k : Token} {i : Nat} : ts[i]? = some k → Lies ts (.literal k) i i
  | variable {k : Token} {i : Nat} : ts[i]? = some k → Lies ts (.variable k) i i
  | binary {left right : Node} {op : Token} {i m n j : Nat} : Lies ts left i m → Lies ts right n j → m < n →
      Lies ts (.binary left op right) i j

/-- The spans hold the tokens from `i` up to `j`. -/
structure Held (ts : List Token) (ss : List Span) (i j : Nat) : Prop where
  ne : ss ≠ []
  solid : ∀ s ∈ ss, Solid s
  le : i ≤ j
  lt : j < ts.length
  toks : allToks ss = part ts i (j + 1)
  one : (∀ k ∈ part ts i (j + 1), k.t ≠ .lineComment) → ∃ s, ss = [s]

theorem allToks_cons (s : Span) (r : List Span) : allToks (s :: r) = s.toks ++ allToks r := rfl

/-- The first span of the spans. -/
theorem Held.first {ts : List Token} (hi : Indexed ts) {s : Span} {r : List Span} {i j : Nat} (h : Held ts (s :: r) i j) :
    ∃ m, i < m ∧ m ≤ j + 1 ∧ s.toks = part ts i m ∧ s.leftOffset = some i ∧ s.rightOffset = some (m - 1) := by
  have hs := h.solid s (by simp)
  have ht := h.toks
  rw [allToks_cons] at ht
  have hl := congrArg List.length ht
  have hlt := h.lt
  have hle := h.le
  rw [List.length_append, part_length (by omega)] at hl
  have hpos : 0 < s.toks.length := List.length_pos_iff.mpr hs.toks_ne
  obtain ⟨q, hq⟩ : ∃ q, s.toks.length = q := ⟨_, rfl⟩
  rw [hq] at hl hpos
  have e : s.toks = part ts i (i + q) := by
    have h2 := part_append ts (a := i) (b := i + q) (c := j + 1) (by omega) (by omega)
    rw [← ht] at h2
    have h4 : (part ts i (i + q)).length = q := by
      rw [part_length (by omega)]
      omega
    exact (List.append_inj_left h2 (by rw [h4, hq])).symm
  refine ⟨i + q, by omega, by omega, e, ?_, ?_⟩
  · rw [hs.leftOffset, e, part_head? ts (by omega), List.getElem?_eq_getElem (by omega)]
    exact hi _ _ (List.getElem?_eq_getElem (by omega))
  · rw [hs.rightOffset, e, part_getLast? (by omega) (by omega)]
    have : i + q - 1 < ts.length := by omega
    rw [List.getElem?_eq_getElem this]
    exact hi _ _ (List.getElem?_eq_getElem this)

/-- The state of the loop over the line comments. -/
structure Cut.Good (ts : List Token) (c : Cut) (i : Nat) : Prop where
  spans : ∀ s ∈ c.spans, Solid s
  chunks : ∀ x ∈ c.chunks, x.tokens ≠ []
  subspans : ∀ s ∈ c.subspans, Solid s
  le : i ≤ c.start
  toks : allToks c.spans ++ chunkToks c.chunks = part ts i c.start

theorem cutComments_spec {ts : List Token} (hi : Indexed ts) {lmt lvl i : Nat} (hl : lmt ≤ ts.length) : ∀ (n : Nat) (c : Cut),
    c.Good ts i → c.start ≤ lmt → lmt - c.start < n →
    ∃ c' : Cut, cutComments ts lmt lvl n c = some c' ∧ c'.Good ts i ∧ c'.start ≤ lmt ∧
      ((∀ k ∈ part ts c.start lmt, k.t ≠ .lineComment) → c' = c)
  | 0, _, _, _, h => absurd h (Nat.not_lt_zero _)
  | n + 1, c, g, hs, hn => by
    unfold cutComments
    rw [slice_part hs hl]
    simp only [Option.bind_eq_bind, Option.bind_some]
    cases hf : (part ts c.start lmt).find? (·.t == .lineComment) with
    | none => exact ⟨c, rfl, g, hs, fun _ => rfl⟩
    | some lc =>
      have hm := List.mem_of_find?_eq_some hf
      have hp := List.find?_some hf
      obtain ⟨x, h1, h2, h3⟩ := part_mem hm
      have hx := (List.getElem?_eq_some_iff.mp h3).1
      have hne : part ts c.start (x + 1) ≠ [] := by
        intro h4
        have := congrArg List.length h4
        rw [part_length (by omega)] at this
        simp at this
        omega
      obtain ⟨c', e1, e2, e3, _⟩ := cutComments_spec (lvl := lvl) (i := i) hi hl n
        ⟨x + 1, [], [], c.spans ++ [.new (c.chunks ++ [.unspaced (part ts c.start (x + 1))])
          (c.subspans ++ [.leaf [.unspaced (part ts c.start (x + 1))] lvl]) lvl]⟩
        ⟨by
          intro s hs
          rcases List.mem_append.mp hs with hs | hs
          · exact g.spans s hs
          · rw [List.mem_singleton.mp hs]
            refine .mk (by simp) ?_ ?_
            · intro y hy
              rcases List.mem_append.mp hy with hy | hy
              · exact g.chunks y hy
              · rw [List.mem_singleton.mp hy]
                exact hne
            · intro y hy
              rcases List.mem_append.mp hy with hy | hy
              · exact g.subspans y hy
              · rw [List.mem_singleton.mp hy]
                exact .leaf hne, by simp, by simp, by
          have := g.le
          change i ≤ x + 1
          omega, by
          change allToks (c.spans ++ [_]) ++ chunkToks [] = part ts i (x + 1)
          rw [allToks_append, show chunkToks [] = [] from rfl, List.append_nil, allToks_cons, show allToks [] = [] from rfl,
            List.append_nil]
          change allToks c.spans ++ chunkToks (c.chunks ++ [_]) = _
          rw [chunkToks_append, ← List.append_assoc, g.toks]
          change part ts i c.start ++ (part ts c.start (x + 1) ++ []) = _
          rw [List.append_nil, part_append ts g.le (by omega)]⟩ (by change x + 1 ≤ lmt; omega) (by change lmt - (x + 1) < n; omega)
      refine ⟨c', ?_, e2, e3, ?_⟩
      · change (lc.offset.bind _) = _
        rw [hi x lc h3]
        simp only [Option.bind_some]
        rw [slice_part (by omega) (by omega)]
        exact e1
      · intro hno
        exact absurd (by simpa using hp) (hno lc hm)

theorem binarySpans_spec {ts : List Token} (hi : Indexed ts) {lvl : Nat} {left right : List Span} {i m n j : Nat}
    (hl : Held ts left i m) (hr : Held ts right n j) (hmn : m < n) :
    ∃ ss, binarySpans ts lvl left right = some ss ∧ Held ts ss i j := by
  cases left with
  | nil => exact absurd rfl hl.ne
  | cons s ls =>
    cases right with
    | nil => exact absurd rfl hr.ne
    | cons f rest =>
      obtain ⟨x, x1, x2, x3, x4, x5⟩ := hl.first hi
      obtain ⟨y, y1, y2, y3, y4, y5⟩ := hr.first hi
      have hs := hl.solid s (by simp)
      have hf := hr.solid f (by simp)
      have hlt := hr.lt
      have hle := hr.le
      obtain ⟨c, e1, e2, e3, e4⟩ := cutComments_spec (lvl := lvl) (i := i) hi (lmt := n) (by omega) (n + 1)
        ⟨x, s.chunks, [s], []⟩ ⟨by simp, hs.full, by simpa using hs, Nat.le_of_lt x1, x3⟩ (by change x ≤ n; omega)
        (by change n - x < n + 1; omega)
      obtain ⟨f', f1, f2, f3⟩ := leftExtend_solid (part ts c.start n) f hf
      refine ⟨c.spans ++ [.new (c.chunks ++ f'.chunks) (c.subspans ++ [f']) lvl] ++ rest, ?_, ?_⟩
      · unfold binarySpans
        have h1 : (s.chunks.getLast? >>= fun last => last.rightOffset) = some (x - 1) := x5
        cases hg : s.chunks.getLast? with
        | none =>
          rw [hg] at h1
          cases h1
        | some last =>
          rw [hg] at h1
          simp only [Option.bind_eq_bind, Option.bind_some] at h1
          simp only [Option.bind_eq_bind, hg, Option.bind_some, h1, y4, List.take_succ_cons, List.take_zero]
          rw [show x - 1 + 1 = x by omega, e1]
          simp only [Option.bind_some]
          rw [slice_part e3 (by omega)]
          simp only [Option.bind_some, f1]
          rfl
      · refine ⟨by simp, ?_, by have := e2.le; omega, hlt, ?_, ?_⟩
        · intro z hz
          rcases List.mem_append.mp hz with hz | hz
          · rcases List.mem_append.mp hz with hz | hz
            · exact e2.spans z hz
            · rw [List.mem_singleton.mp hz]
              refine .mk ?_ ?_ ?_
              · intro h4
                exact f2.chunks_ne (List.append_eq_nil_iff.mp h4).2
              · intro q hq
                rcases List.mem_append.mp hq with hq | hq
                · exact e2.chunks q hq
                · exact f2.full q hq
              · intro q hq
                rcases List.mem_append.mp hq with hq | hq
                · exact e2.subspans q hq
                · rw [List.mem_singleton.mp hq]
                  exact f2
          · exact hr.solid z (List.mem_cons_of_mem _ hz)
        · rw [allToks_append, allToks_append, allToks_cons, show allToks [] = [] from rfl, List.append_nil]
          change allToks c.spans ++ chunkToks (c.chunks ++ f'.chunks) ++ allToks rest = _
          rw [chunkToks_append, ← List.append_assoc, e2.toks, show chunkToks f'.chunks = f'.toks from rfl, f3, List.append_assoc,
            List.append_assoc, ← allToks_cons, hr.toks, part_append ts e3 (by omega), part_append ts (by have := e2.le; omega) (by omega)]
        · intro hno
          have hc : c = _ := e4 (fun k hk => hno k (by
            have h1 := part_append ts (a := i) (b := x) (c := n) (by omega) (by omega)
            have h2 := part_append ts (a := i) (b := n) (c := j + 1) (by omega) (by omega)
            rw [← h2, ← h1]
            exact List.mem_append_left _ (List.mem_append_right _ hk)))
          obtain ⟨q, hq⟩ := hr.one (fun k hk => hno k (by
            have h2 := part_append ts (a := i) (b := n) (c := j + 1) (by omega) (by omega)
            rw [← h2]
            exact List.mem_append_right _ hk))
          rw [hc]
          rw [(List.cons.inj hq).2]
          exact ⟨_, rfl⟩

theorem nodeSpans_expr {ts : List Token} (hi : Indexed ts) (lvl : Nat) {n : Node} {i j : Nat} (h : Lies ts n i j) :
    ∃ ss, nodeSpans ts n lvl = some ss ∧ Held ts ss i j := by
  have one (k : Token) (i : Nat) (hk : ts[i]? = some k) : Held ts [.leaf [.unspaced [k]] lvl] i i :=
    ⟨by simp, by
      intro s hs
      rw [List.mem_singleton.mp hs]
      exact .leaf (by simp [Chunk.unspaced]), Nat.le_refl _, (List.getElem?_eq_some_iff.mp hk).1, by
      rw [part_one hk]
      rfl, fun _ => ⟨_, rfl⟩⟩
  induction h with
  | literal hk => exact ⟨_, rfl, one _ _ hk⟩
  | «variable» hk => exact ⟨_, rfl, one _ _ hk⟩
  | binary _ _ hmn ihl ihr =>
    obtain ⟨l, l1, l2⟩ := ihl
    obtain ⟨r, r1, r2⟩ := ihr
    obtain ⟨ss, s1, s2⟩ := binarySpans_spec (lvl := lvl) hi l2 r2 hmn
    refine ⟨ss, ?_, s2⟩
    rw [nodeSpans, l1, r1]
    exact s1

/-! ## Statements -/

/-- The comments directly in front of the token at `i` begin at `a`. -/
structure Before (ts : List Token) (a i : Nat) : Prop where
  pos : 0 < a
  le : a ≤ i
  front : At ts (a - 1) (· ≠ .multilineComment)
  comments : Only ts a i (· = .multilineComment)

theorem Before.prevThat {ts : List Token} (hi : Indexed ts) {a i : Nat} (h : Before ts a i) (hl : i ≤ ts.length) :
    prevThat i ts (fun k => k.t != .multilineComment) = some (a - 1) := by
  obtain ⟨k, h1, h2⟩ := h.front
  have hp := h.pos
  have hle := h.le
  refine prevThat_eq hi _ (by omega) hl h1 (by simpa using h2) ?_
  intro x hx
  rw [show a - 1 + 1 = a by omega] at hx
  have := h.comments.part x hx
  simp [this]

theorem addComments_spec {ts : List Token} (hi : Indexed ts) {ss : List Span} {a i j : Nat} (h : Held ts ss i j)
    (hb : Before ts a i) : ∃ ss', addComments ts ss = some ss' ∧ Held ts ss' a j ∧ ss'.length = ss.length := by
  cases ss with
  | nil => exact absurd rfl h.ne
  | cons s r =>
    obtain ⟨m, m1, m2, m3, m4, m5⟩ := h.first hi
    have hs := h.solid s (by simp)
    have hle := h.le
    have hlt := h.lt
    have hbl := hb.le
    have hbp := hb.pos
    obtain ⟨s', e1, e2, e3⟩ := leftExtend_solid (part ts a i) s hs
    refine ⟨s' :: r, ?_, ⟨by simp, ?_, by omega, hlt, ?_, ?_⟩, rfl⟩
    · unfold addComments
      simp only [Option.bind_eq_bind, m4, Option.bind_some]
      rw [hb.prevThat hi (by omega)]
      simp only [Option.bind_some]
      rw [show a - 1 + 1 = a by omega, slice_part hbl (by omega)]
      simp only [Option.bind_some, e1]
      rfl
    · intro x hx
      rcases List.mem_cons.mp hx with rfl | hx
      · exact e2
      · exact h.solid x (List.mem_cons_of_mem _ hx)
    · rw [allToks_cons, e3, List.append_assoc, ← allToks_cons, h.toks, part_append ts hbl (by omega)]
    · intro hno
      obtain ⟨q, hq⟩ := h.one (fun k hk => hno k (by
        rw [← part_append ts hbl (show i ≤ j + 1 by omega)]
        exact List.mem_append_right _ hk))
      rw [(List.cons.inj hq).2]
      exact ⟨_, rfl⟩

/-- The end of a statement: the next semicolon, and a line comment behind it. -/
structure Ends (ts : List Token) (j q b : Nat) : Prop where
  lt : j < q
  inner : Only ts (j + 1) q (· ≠ .semicolon)
  semicolon : At ts q (· = .semicolon)
  comment : (At ts (q + 1) (· = .lineComment) ∧ b = q + 1) ∨ (At ts (q + 1) (· ≠ .lineComment) ∧ b = q)

theorem addEnd_spec {ts : List Token} (hi : Indexed ts) {j q b : Nat} (he : Ends ts j q b) : ∀ ss : List Span, ss ≠ [] →
    (∀ s ∈ ss, Solid s) → (allToks ss).getLast? = ts[j]? →
    ∃ ss', addEnd ts ss = some ss' ∧ ss'.length = ss.length ∧ (∀ s ∈ ss', Solid s) ∧
      allToks ss' = allToks ss ++ part ts (j + 1) (b + 1)
  | [], h, _, _ => absurd rfl h
  | [s], _, hs, hl => by
    have hs := hs s (by simp)
    obtain ⟨k, k1, k2⟩ := he.semicolon
    have hq := (List.getElem?_eq_some_iff.mp k1).1
    have hj := he.lt
    have hr : s.rightOffset = some j := by
      rw [allToks_cons, show allToks [] = [] from rfl, List.append_nil] at hl
      rw [hs.rightOffset, hl, List.getElem?_eq_getElem (by omega)]
      exact hi _ _ (List.getElem?_eq_getElem (by omega))
    obtain ⟨s', e1, e2, e3⟩ := rightExtend_solid (part ts (j + 1) (b + 1)) s hs
    refine ⟨[s'], ?_, rfl, by simpa using e2, ?_⟩
    · unfold addEnd
      simp only [Option.bind_eq_bind, hr, Option.bind_some]
      rw [nextThat_eq hi _ hj k1 (by simp [k2]) (fun x hx => by simpa using he.inner.part x hx)]
      simp only [Option.bind_some]
      rcases he.comment with ⟨⟨c, c1, c2⟩, rfl⟩ | ⟨⟨c, c1, c2⟩, rfl⟩
      · have hc := (List.getElem?_eq_some_iff.mp c1).1
        rw [c1]
        simp only [Option.bind_some, c2, if_true]
        rw [slice_part (by omega) (by omega)]
        simp only [Option.bind_some, e1]
        rfl
      · rw [c1]
        simp only [Option.bind_some, c2, if_false]
        rw [slice_part (by omega) (by omega)]
        simp only [Option.bind_some, e1]
        rfl
    · rw [allToks_cons, e3, allToks_cons, show allToks [] = [] from rfl, List.append_nil, List.append_nil]
  | s :: s2 :: r, _, hs, hl => by
    have h2 := hs s2 (by simp)
    obtain ⟨r', e1, e2, e3, e4⟩ := addEnd_spec hi he (s2 :: r) (by simp) (fun x hx => hs x (List.mem_cons_of_mem _ hx)) (by
      rw [allToks_cons, List.getLast?_append] at hl
      cases hg : (allToks (s2 :: r)).getLast? with
      | none =>
        rw [List.getLast?_eq_none_iff, allToks_cons] at hg
        exact absurd (List.append_eq_nil_iff.mp hg).1 h2.toks_ne
      | some x =>
        rw [hg] at hl
        exact hl)
    refine ⟨s :: r', ?_, by simp [e2], ?_, ?_⟩
    · rw [addEnd, e1]
      rfl
    · intro x hx
      rcases List.mem_cons.mp hx with rfl | hx
      · exact hs _ (by simp)
      · exact e3 x hx
    · rw [allToks_cons, e4, allToks_cons s, List.append_assoc]

/-- Comments and line breaks. -/
def Trivia (t : TT) : Prop := t = .lineComment ∨ t = .multilineComment ∨ t = .linebreak

/-- Behind a line comment there are only comments. -/
def Hush (l : List Token) : Prop :=
  ∀ (u : List Token) (k : Token) (r : List Token), l = u ++ k :: r → k.t = .lineComment → ∀ x ∈ r, Trivia x.t

theorem Hush.trivia {l : List Token} (h : ∀ k ∈ l, Trivia k.t) : Hush l := by
  intro u k r e _ x hx
  exact h x (by rw [e]; simp [hx])

theorem Hush.append {a b : List Token} (ha : ∀ k ∈ a, k.t ≠ .lineComment) (hb : Hush b) : Hush (a ++ b) := by
  intro u k r e hk x hx
  rcases List.append_eq_append_iff.mp e with ⟨v, rfl, hv⟩ | ⟨v, hv, hb'⟩
  · exact hb v k r hv hk x hx
  · cases v with
    | nil => exact hb [] k r hb'.symm hk x hx
    | cons y w =>
      rw [List.cons_append] at hb'
      have h1 := (List.cons.inj hb').1
      subst h1
      exact absurd hk (ha k (by rw [hv]; simp))

theorem Hush.none {a : List Token} (ha : ∀ k ∈ a, k.t ≠ .lineComment) : Hush a := by
  have := Hush.append ha (b := []) (.trivia (by simp))
  rwa [List.append_nil] at this

/-- What the spans of a statement from `a` to `b` are like. -/
structure Shown (ts : List Token) (quiet : Prop) (ss : List Span) (a b : Nat) : Prop where
  first : ∃ f r, ss = f :: r ∧ f.leftOffset = some a
  last : ∃ l, ss.getLast? = some l ∧ l.rightOffset = some b
  le : a ≤ b
  lt : b < ts.length
  toks : visible (allToks ss) = visible (part ts a (b + 1))
  hush : quiet → ∀ s ∈ ss, Hush s.toks

theorem lt_of_getElem? {ts : List Token} {i : Nat} {k : Token} (h : ts[i]? = some k) : i < ts.length :=
  (List.getElem?_eq_some_iff.mp h).1

theorem Ends.bound {ts : List Token} {j q b : Nat} (h : Ends ts j q b) : q ≤ b ∧ b < ts.length ∧ q + 1 < ts.length := by
  rcases h.comment with ⟨⟨c, c1, _⟩, rfl⟩ | ⟨⟨c, c1, _⟩, rfl⟩
  · have := lt_of_getElem? c1
    omega
  · have := lt_of_getElem? c1
    omega

theorem nodeSpans_stmt {ts : List Token} (hi : Indexed ts) {quiet : Prop} (lvl : Nat) {e : Node} {a i j q b : Nat}
    (h : Lies ts e i j) (hb : Before ts a i) (he : Ends ts j q b) (hq : quiet → Only ts i q (· ≠ .lineComment)) :
    ∃ ss, nodeSpans ts (.expressionStatement e) lvl = some ss ∧ Shown ts quiet ss a b := by
  obtain ⟨s0, z1, z2⟩ := nodeSpans_expr hi lvl h
  obtain ⟨s1, a1, a2, a3⟩ := addComments_spec hi z2 hb
  have hlt := a2.lt
  have hle := a2.le
  have hle2 := z2.le
  have hjq := he.lt
  obtain ⟨b1, b2, b3⟩ := he.bound
  obtain ⟨s2, e1, e2, e3, e4⟩ := addEnd_spec hi he s1 a2.ne a2.solid (by
    rw [a2.toks, part_getLast? (by omega) (by omega)]
    rfl)
  have ht : allToks s2 = part ts a (b + 1) := by
    rw [e4, a2.toks, part_append ts (by omega) (by omega)]
  have hne : s2 ≠ [] := by
    intro h0
    rw [h0] at e2
    exact a2.ne (List.length_eq_zero_iff.mp e2.symm)
  refine ⟨s2, ?_, ?_, ?_, by omega, b2, by rw [ht], ?_⟩
  · rw [nodeSpans, z1]
    simp only [Option.bind_eq_bind, Option.bind_some, a1]
    exact e1
  · cases s2 with
    | nil => exact absurd rfl hne
    | cons f r =>
      refine ⟨f, r, rfl, ?_⟩
      have hf := e3 f (by simp)
      have h1 : (allToks (f :: r)).head? = ts[a]? := by rw [ht, part_head? ts (by omega)]
      rw [allToks_cons, List.head?_append] at h1
      rw [hf.leftOffset]
      cases hg : f.toks.head? with
      | none => exact absurd (List.head?_eq_none_iff.mp hg) hf.toks_ne
      | some x =>
        rw [hg] at h1
        exact hi _ _ h1.symm
  · rcases List.eq_nil_or_concat s2 with rfl | ⟨u, l, rfl⟩
    · exact absurd rfl hne
    · rw [List.concat_eq_append] at *
      refine ⟨l, by simp, ?_⟩
      have hl := e3 l (by simp)
      have h1 : (allToks (u ++ [l])).getLast? = ts[b]? := by
        rw [ht, part_getLast? (by omega) (by omega)]
        rfl
      rw [allToks_append, List.getLast?_append, allToks_cons, show allToks [] = [] from rfl, List.append_nil] at h1
      rw [hl.rightOffset]
      cases hg : l.toks.getLast? with
      | none => exact absurd (List.getLast?_eq_none_iff.mp hg) hl.toks_ne
      | some x =>
        rw [hg] at h1
        exact hi _ _ h1.symm
  · intro hquiet
    have h1 := hq hquiet
    obtain ⟨s, hs⟩ := a2.one (by
      intro k hk
      obtain ⟨x, x1, x2, x3⟩ := part_mem hk
      by_cases hx : x < i
      · rw [hb.comments x k x1 hx x3]
        decide
      · exact h1 x k (by omega) (by omega) x3)
    have h2 : ∃ s', s2 = [s'] := by
      rw [hs] at e2
      exact List.length_eq_one_iff.mp e2
    obtain ⟨s', rfl⟩ := h2
    rw [allToks_cons, show allToks [] = [] from rfl, List.append_nil] at ht
    intro x hx
    rw [List.mem_singleton.mp hx, ht, ← part_append ts (show a ≤ q + 1 by omega) (show q + 1 ≤ b + 1 by omega)]
    refine .append ?_ (.trivia ?_)
    · intro k hk
      obtain ⟨y, y1, y2, y3⟩ := part_mem hk
      by_cases hy : y < i
      · rw [hb.comments y k y1 hy y3]
        decide
      · by_cases hyq : y = q
        · subst hyq
          obtain ⟨k', k1, k2⟩ := he.semicolon
          rw [y3] at k1
          rw [Option.some.inj k1, k2]
          decide
        · exact h1 y k (by omega) (by omega) y3
    · intro k hk
      obtain ⟨y, y1, y2, y3⟩ := part_mem hk
      rcases he.comment with ⟨⟨c, c1, c2⟩, rfl⟩ | ⟨_, rfl⟩
      · have : y = q + 1 := by omega
        subst this
        rw [c1] at y3
        rw [← Option.some.inj y3, c2]
        exact .inl rfl
      · omega

/-! ## Loops -/

/-- The head of a while loop: the comments in front begin at `a`, the closing parenthesis stands at `p`. -/
structure Head (ts : List Token) (quiet : Prop) (token op cp : Token) (condition : Node) (a p : Nat) : Prop where
  at' : ∃ w o i j : Nat, ts[w]? = some token ∧ ts[o]? = some op ∧ ts[p]? = some cp ∧ cp.t = .closeParenthesis ∧
    Before ts a w ∧ w ≤ o ∧ o < i ∧ j < p ∧ Lies ts condition i j ∧
    Only ts (o + 1) i (· = .linebreak) ∧ Only ts (j + 1) p (· = .linebreak) ∧ Only ts i (j + 1) (· ≠ .lineComment) ∧
    (quiet → Only ts w (o + 1) (· ≠ .lineComment))

theorem headChunks_spec {s : Span} (h : Solid s) :
    chunkToks (headChunks [s]) = s.toks ∧ ∀ c ∈ headChunks [s], c.tokens ≠ [] := by
  unfold headChunks
  by_cases hs : s.spaced = true
  · simp only [hs, if_true]
    have h1 := h.full
    have h2 := h.chunks_ne
    change chunkToks _ = chunkToks s.chunks ∧ _
    rcases List.eq_nil_or_concat s.chunks with h0 | ⟨u, l, h0⟩
    · exact absurd h0 h2
    · rw [List.concat_eq_append] at h0
      rw [h0] at h1 ⊢
      simp only [List.dropLast_concat, List.getLast?_concat, Option.toList_some]
      constructor
      · rw [chunkToks_append, chunkToks_append]
        congr 1
        unfold chunkToks
        rw [List.flatMap_map]
        rfl
      · intro c hc
        rcases List.mem_append.mp hc with hc | hc
        · obtain ⟨d, d1, rfl⟩ := List.mem_map.mp hc
          exact h1 d (by simp [d1])
        · rw [List.mem_singleton.mp hc]
          exact h1 l (by simp)
  · simp only [hs]
    exact ⟨rfl, h.full⟩

theorem part_ne {ts : List Token} {a b : Nat} (h1 : a < b) (h2 : b ≤ ts.length) : part ts a b ≠ [] := by
  intro h
  have := congrArg List.length h
  rw [part_length h2] at this
  simp at this
  omega

theorem whileSpans_spec {ts : List Token} (hi : Indexed ts) {quiet : Prop} {token op cp : Token} {condition : Node}
    {a p q e lvl : Nat} (h : Head ts quiet token op cp condition a p) (hpq : p < q)
    (htr : Only ts (p + 1) q Trivia) {oc : Token} (hoc : ts[q]? = some oc) (hoct : ¬ Trivia oc.t)
    (he : (oc.t = .openCurly ∧ e = q + 1 ∧ (quiet → Only ts (p + 1) q (· ≠ .lineComment))) ∨ (oc.t ≠ .openCurly ∧ e = q))
    (lvl' : Nat) (body : List Span) :
    ∃ (cond : List Span) (head : Span), nodeSpans ts condition lvl' = some cond ∧
      whileSpans ts token op cp lvl cond body = some (head :: body) ∧ head.leftOffset = some a ∧ a < e ∧
      visible head.toks = visible (part ts a e) ∧ (quiet → Hush head.toks) := by
  obtain ⟨w, o, i, j, k1, k2, k3, k4, hb, hwo, hoi, hjp, hlies, g1, g2, g3, g4⟩ := h.at'
  obtain ⟨cond, c1, c2⟩ := nodeSpans_expr hi lvl' hlies
  obtain ⟨s, rfl⟩ := c2.one g3.part
  have hs := c2.solid s (by simp)
  have hst : s.toks = part ts i (j + 1) := by
    have := c2.toks
    rwa [allToks_cons, show allToks [] = [] from rfl, List.append_nil] at this
  obtain ⟨d1, d2⟩ := headChunks_spec hs
  have hbl := hb.le
  have hbp := hb.pos
  have hij := c2.le
  have hql := lt_of_getElem? hoc
  have hpe : p < e := by
    rcases he with ⟨_, h, _⟩ | ⟨_, h⟩ <;> omega
  have hel : e ≤ ts.length := by
    rcases he with ⟨_, h, _⟩ | ⟨_, h⟩ <;> omega
  -- the last chunk
  obtain ⟨cpOc, x1, x2⟩ : ∃ c : Chunk, closing ts p q (oc.t == .openCurly) = some c ∧ c.tokens = part ts p e := by
    unfold closing
    rcases he with ⟨h1, rfl, _⟩ | ⟨h1, rfl⟩
    · rw [if_pos (by simpa using h1), slice_part (by omega) (by omega)]
      exact ⟨_, rfl, rfl⟩
    · rw [if_neg (by simpa using h1), slice_part (by omega) (by omega)]
      exact ⟨_, rfl, rfl⟩
  have hpre : preStatementSpan w ts lvl = some (.new ((part ts a w).map Chunk.single) [] lvl) := by
    unfold preStatementSpan
    rw [hb.prevThat hi (by omega)]
    simp only [Option.bind_eq_bind, Option.bind_some]
    rw [show a - 1 + 1 = a by omega, slice_part hbl (by omega)]
    rfl
  have hbehind : (part ts (p + 1) ts.length).find? (fun k => !isComment k && k.t != .linebreak) = some oc := by
    refine part_find? _ (by omega) hql hoc ?_ ?_
    · unfold isComment
      unfold Trivia at hoct
      simp only [not_or] at hoct
      simp [hoct.1, hoct.2.1, hoct.2.2]
    · intro x hx
      unfold isComment
      rcases htr.part x hx with h | h | h <;> simp [h]
  have hsingle : chunkToks ((part ts a w).map Chunk.single) = part ts a w := by
    unfold chunkToks
    rw [List.flatMap_map]
    change (part ts a w).flatMap (fun k => [k]) = _
    exact List.flatMap_singleton' _
  have htoks : chunkToks ((part ts a w).map Chunk.single ++ [Chunk.new (part ts w (o + 1))] ++ headChunks [s] ++ [cpOc]) =
      part ts a (o + 1) ++ (part ts i (j + 1) ++ part ts p e) := by
    rw [chunkToks_append, chunkToks_append, chunkToks_append, hsingle, d1, hst]
    change part ts a w ++ (part ts w (o + 1) ++ []) ++ _ ++ (cpOc.tokens ++ []) = _
    rw [List.append_nil, List.append_nil, x2, part_append ts hbl (by omega), List.append_assoc]
  refine ⟨[s], .mk ((part ts a w).map Chunk.single ++ [Chunk.new (part ts w (o + 1))] ++ headChunks [s] ++ [cpOc])
    ([.new ((part ts a w).map Chunk.single) [] lvl, .leaf [.new (part ts w (o + 1))] lvl] ++ [s] ++ [.leaf [cpOc] lvl]) lvl false,
    c1, ?_, ?_, by omega, ?_, ?_⟩
  · unfold whileSpans
    rw [hi _ _ k1, hi _ _ k2, hi _ _ k3]
    simp only [Option.bind_eq_bind, Option.bind_some, hpre]
    rw [slice_part (show w ≤ o + 1 by omega) (by omega), slice_part (show p + 1 ≤ ts.length by omega) (Nat.le_refl _)]
    simp only [Option.bind_some, hbehind, hi _ _ hoc]
    rw [x1]
    rfl
  · have hfull : ∀ c ∈ (part ts a w).map Chunk.single ++ [Chunk.new (part ts w (o + 1))] ++ headChunks [s] ++ [cpOc],
        c.tokens ≠ [] := by
      intro c hc
      rcases List.mem_append.mp hc with hc | hc
      · rcases List.mem_append.mp hc with hc | hc
        · rcases List.mem_append.mp hc with hc | hc
          · obtain ⟨k, _, rfl⟩ := List.mem_map.mp hc
            simp [Chunk.single]
          · rw [List.mem_singleton.mp hc]
            exact part_ne (by omega) (by omega)
        · exact d2 c hc
      · rw [List.mem_singleton.mp hc, x2]
        exact part_ne (by omega) hel
    have h1 := chunkToks_head? hfull
    rw [htoks, List.head?_append, part_head? ts (by omega), List.getElem?_eq_getElem (show a < ts.length by omega)] at h1
    change (List.head? _ >>= fun c : Chunk => c.tokens.head? >>= fun t : Token => t.offset) = some a
    cases hh : List.head? ((part ts a w).map Chunk.single ++ [Chunk.new (part ts w (o + 1))] ++ headChunks [s] ++ [cpOc]) with
    | none =>
      rw [hh] at h1
      cases h1
    | some c =>
      rw [hh] at h1
      have h2 : c.tokens.head? = some ts[a] := h1.symm
      simp only [Span.chunks, Option.bind_eq_bind, hh, Option.bind_some, h2]
      exact hi _ _ (List.getElem?_eq_getElem (show a < ts.length by omega))
  · change visible (chunkToks (_ ++ _ ++ _ ++ _)) = _
    rw [htoks, ← part_append ts (show a ≤ o + 1 by omega) (show o + 1 ≤ e by omega),
      ← part_append ts (show o + 1 ≤ i by omega) (show i ≤ e by omega),
      ← part_append ts (show i ≤ j + 1 by omega) (show j + 1 ≤ e by omega),
      ← part_append ts (show j + 1 ≤ p by omega) (show p ≤ e by omega)]
    simp only [visible_append]
    rw [visible_nil g1.part, visible_nil g2.part]
    rfl
  · intro hquiet
    change Hush (chunkToks (_ ++ _ ++ _ ++ _))
    rw [htoks]
    refine .append ?_ (.append g3.part ?_)
    · intro k hk
      obtain ⟨y, y1, y2, y3⟩ := part_mem hk
      by_cases hy : y < w
      · rw [hb.comments y k y1 hy y3]
        decide
      · exact g4 hquiet y k (by omega) (by omega) y3
    · rw [part_cons k3 hpe]
      refine .append (a := [cp]) ?_ ?_
      · intro k hk
        rw [List.mem_singleton.mp hk, k4]
        decide
      · rcases he with ⟨h1, rfl, h2⟩ | ⟨h1, rfl⟩
        · refine .none ?_
          intro k hk
          obtain ⟨y, y1, y2, y3⟩ := part_mem hk
          by_cases hy : y = q
          · subst hy
            rw [hoc] at y3
            rw [← Option.some.inj y3, h1]
            decide
          · exact h2 hquiet y k (by omega) (by omega) y3
        · exact .trivia htr.part

/-! ## Lists of statements -/

mutual

/-- A statement that lies in the stream: the first token, a comment that belongs to it, stands at `a`, the last one at `b`.  If
the program is `quiet`, no line comment stands within a statement. -/
inductive Laid (ts : List Token) (quiet : Prop) : Nat → Node → Nat → Nat → Prop where
  | expr {lvl a i j q b : Nat} {e : Node} : Lies ts e i j → Before ts a i → Ends ts j q b →
      (quiet → Only ts i q (· ≠ .lineComment)) → Laid ts quiet lvl (.expressionStatement e) a b
  | block {lvl a p q e f : Nat} {token op cp oc cc : Token} {condition : Node} {statements : List Node} : lvl < 255 →
      Head ts quiet token op cp condition a p → p < q → Only ts (p + 1) q Trivia → ts[q]? = some oc → oc.t = .openCurly →
      (quiet → Only ts (p + 1) q (· ≠ .lineComment)) → LaidAll ts quiet (lvl + 1) statements q e → ts[e]? = some cc →
      cc.t = .closeCurly → e < f → Only ts (e + 1) f (fun t => t = .lineComment ∨ t = .multilineComment) →
      At ts f (fun t => t ≠ .lineComment ∧ t ≠ .multilineComment) →
      Laid ts quiet lvl (.whileStatement token op condition cp (.block oc statements cc)) a (f - 1)
  | single {lvl a p q b : Nat} {token op cp : Token} {condition body : Node} : lvl < 255 →
      Head ts quiet token op cp condition a p → p < q → Only ts (p + 1) q Trivia →
      At ts q (fun t => ¬ Trivia t ∧ t ≠ .openCurly) → Laid ts quiet (lvl + 1) body q b →
      Laid ts quiet lvl (.whileStatement token op condition cp body) a b

/-- Statements between the tokens at `prev` and `next`. -/
inductive LaidAll (ts : List Token) (quiet : Prop) : Nat → List Node → Nat → Nat → Prop where
  | nil {lvl prev next : Nat} : prev < next → next ≤ ts.length → (quiet → Only ts (prev + 1) next Trivia) →
      LaidAll ts quiet lvl [] prev next
  | cons {lvl prev next a b : Nat} {n : Node} {r : List Node} : Laid ts quiet lvl n a b → prev < a →
      (a = prev + 2 → At ts (prev + 1) (· = .linebreak)) → (quiet → Only ts (prev + 1) a Trivia) →
      LaidAll ts quiet lvl r b next → LaidAll ts quiet lvl (n :: r) prev next

end

theorem splitLines_flatten : ∀ l : List Token, (splitLines l).flatten = visible l
  | [] => rfl
  | k :: r => by
    have ih := splitLines_flatten r
    unfold splitLines visible
    by_cases hk : k.t = .linebreak
    · rw [if_pos hk]
      rw [List.filter_cons_of_neg (by simp [hk])]
      exact ih
    · rw [if_neg hk, List.filter_cons_of_pos (by simp [hk])]
      change _ = k :: visible r
      rw [← ih]
      cases splitLines r with
      | nil => rfl
      | cons x y => rfl

theorem visible_sub {l : List Token} {k : Token} (h : k ∈ visible l) : k ∈ l := (List.mem_filter.mp h).1

theorem visible_visible (l : List Token) : visible (visible l) = visible l := by
  unfold visible
  rw [List.filter_filter]
  simp

theorem visible_trimFront (l : List Token) : visible (trimFront l) = visible l := by
  unfold trimFront
  cases l with
  | nil => rfl
  | cons k r =>
    by_cases hk : k.t = .linebreak
    · simp only [hk, if_true]
      unfold visible
      rw [List.filter_cons_of_neg (by simp [hk])]
    · simp only [hk, if_false]

theorem visible_trimBack (l : List Token) : visible (trimBack l) = visible l := by
  unfold trimBack
  rcases List.eq_nil_or_concat l with rfl | ⟨u, k, rfl⟩
  · rfl
  · rw [List.concat_eq_append]
    simp only [List.getLast?_concat, List.dropLast_concat]
    by_cases hk : k.t = .linebreak
    · simp only [hk, if_true]
      rw [visible_append, visible_nil (l := [k]) (by simpa using hk), List.append_nil]
    · simp only [hk, if_false]

theorem allToks_leaves (ls : List (List Token)) (lvl : Nat) :
    allToks (ls.map fun l => .leaf [.new l] lvl) = ls.flatten := by
  induction ls with
  | nil => rfl
  | cons l r ih =>
    rw [List.map_cons, allToks_cons, ih]
    change (l ++ []) ++ r.flatten = _
    rw [List.append_nil]
    rfl

theorem chunkToks_lines (ls : List (List Token)) : chunkToks (ls.map .new) = ls.flatten := by
  induction ls with
  | nil => rfl
  | cons l r ih =>
    rw [List.map_cons]
    change l ++ chunkToks (r.map .new) = _
    rw [ih]
    rfl

theorem betweenSpans_spec {ts : List Token} (lvl : Nat) {prev cur : Nat} (h1 : prev < cur) (h2 : cur ≤ ts.length)
    (h3 : cur = prev + 2 → At ts (prev + 1) (· = .linebreak)) :
    ∃ ss, betweenSpans ts lvl prev cur = some ss ∧ visible (allToks ss) = visible (part ts (prev + 1) cur) ∧
      ∀ s ∈ ss, ∀ k ∈ s.toks, k ∈ part ts (prev + 1) cur := by
  unfold betweenSpans
  rw [slice_part h1 h2]
  simp only [Option.bind_eq_bind, Option.bind_some]
  by_cases hl : 1 < (part ts (prev + 1) cur).length
  · rw [if_pos hl]
    have h4 : visible (trimBack (trimFront (part ts (prev + 1) cur))) = visible (part ts (prev + 1) cur) := by
      rw [visible_trimBack, visible_trimFront]
    refine ⟨_, rfl, ?_, ?_⟩
    · rw [allToks_leaves, splitLines_flatten, visible_visible, h4]
    · intro s hs k hk
      have h5 : k ∈ allToks ((splitLines (trimBack (trimFront (part ts (prev + 1) cur)))).map fun l => .leaf [.new l] lvl) := List.mem_flatMap.mpr ⟨s, hs, hk⟩
      rw [allToks_leaves, splitLines_flatten, h4] at h5
      exact visible_sub h5
  · rw [if_neg hl]
    refine ⟨[], rfl, ?_, by simp⟩
    rw [part_length h2] at hl
    by_cases h4 : cur = prev + 2
    · obtain ⟨k, k1, k2⟩ := h3 h4
      rw [h4, part_one k1, visible_nil (l := [k]) (by simpa using k2)]
      rfl
    · rw [show cur = prev + 1 by omega, part_self]
      rfl

mutual

theorem nodeSpans_laid {ts : List Token} (hi : Indexed ts) {quiet : Prop} : ∀ {lvl : Nat} {n : Node} {a b : Nat},
    Laid ts quiet lvl n a b → ∃ ss, nodeSpans ts n lvl = some ss ∧ Shown ts quiet ss a b
  | lvl, _, _, _, .expr h hb he hq => nodeSpans_stmt hi lvl h hb he hq
  | lvl, _, a, _, .block (q := q) (e := e) (f := f) (token := token) (op := op) (cp := cp) (oc := oc) (cc := cc)
      (condition := condition) (statements := statements) hlvl hh hpq htr hoc hoct hql hss hcc hcct hef hco hf => by
    obtain ⟨ss, s1, s2, s3, s4, s5⟩ := astSpans_laid hi hss
    obtain ⟨g, g1, g2⟩ := hf
    have hfl := lt_of_getElem? g1
    obtain ⟨cond, head, e1, e2, e3, e4, e5, e6⟩ := whileSpans_spec hi (lvl := lvl) hh hpq htr hoc
      (by rw [hoct]; unfold Trivia; decide) (.inl ⟨hoct, rfl, hql⟩) (lvl + 1) (ss ++ [.new [.new (part ts e f)] [] lvl])
    refine ⟨head :: (ss ++ [.new [.new (part ts e f)] [] lvl]), ?_, ⟨head, _, rfl, e3⟩, ⟨.new [.new (part ts e f)] [] lvl, ?_, ?_⟩,
      by omega, by omega, ?_, ?_⟩
    · have hblock : nodeSpans ts (.block oc statements cc) (lvl + 1) = some (ss ++ [.new [.new (part ts e f)] [] lvl]) := by
        rw [nodeSpans, hi _ _ hoc, hi _ _ hcc]
        simp only [Option.bind_eq_bind, Option.bind_some, s1]
        rw [nextThat_eq hi _ hef g1 (by unfold isComment; simp [g2.1, g2.2]) (by
          intro x hx
          unfold isComment
          rcases hco.part x hx with h | h <;> simp [h])]
        simp only [Option.bind_some]
        rw [slice_part (by omega) (by omega)]
        simp only [Option.bind_some, outer, if_pos (Nat.succ_pos lvl), Nat.add_sub_cancel]
        rfl
      rw [nodeSpans]
      simp only [deeper, if_pos hlvl, Option.bind_eq_bind, Option.bind_some, e1, hblock]
      exact e2
    · rw [← List.cons_append, List.getLast?_concat]
    · change (part ts e f).getLast? >>= (fun t => t.offset) = _
      rw [part_getLast? hef (by omega), List.getElem?_eq_getElem (by omega)]
      exact hi _ _ (List.getElem?_eq_getElem (by omega))
    · rw [allToks_cons, allToks_append, allToks_cons, show allToks [] = [] from rfl, List.append_nil, visible_append,
        visible_append, e5, s4]
      change _ ++ (_ ++ visible (part ts e f ++ [])) = _
      rw [List.append_nil, ← visible_append, ← visible_append, part_append ts (by omega) (by omega),
        part_append ts (by omega) (by omega), show f - 1 + 1 = f by omega]
    · intro hquiet s hs
      rcases List.mem_cons.mp hs with rfl | hs
      · exact e6 hquiet
      · rcases List.mem_append.mp hs with hs | hs
        · exact s5 hquiet s hs
        · rw [List.mem_singleton.mp hs]
          change Hush (part ts e f ++ [])
          rw [List.append_nil, part_cons hcc hef]
          refine .append (a := [cc]) ?_ (.trivia ?_)
          · intro k hk
            rw [List.mem_singleton.mp hk, hcct]
            decide
          · intro k hk
            rcases hco.part k hk with h | h
            · exact .inl h
            · exact .inr (.inl h)
  | lvl, _, a, b, .single (q := q) (token := token) (op := op) (cp := cp) (condition := condition) (body := body) hlvl hh hpq
      htr hoc hbody => by
    obtain ⟨ss, s1, s2⟩ := nodeSpans_laid hi hbody
    obtain ⟨oc, o1, o2, o3⟩ := hoc
    obtain ⟨cond, head, e1, e2, e3, e4, e5, e6⟩ := whileSpans_spec hi (lvl := lvl) hh hpq htr o1 o2 (.inr ⟨o3, rfl⟩) (lvl + 1) ss
    obtain ⟨f, r, rfl, hfl⟩ := s2.first
    obtain ⟨l, l1, l2⟩ := s2.last
    have hle := s2.le
    refine ⟨head :: f :: r, ?_, ⟨head, _, rfl, e3⟩, ⟨l, ?_, l2⟩, by omega, s2.lt, ?_, ?_⟩
    · rw [nodeSpans]
      simp only [deeper, if_pos hlvl, Option.bind_eq_bind, Option.bind_some, e1, s1]
      exact e2
    · rw [List.getLast?_cons_cons]
      exact l1
    · rw [allToks_cons, visible_append, e5, s2.toks, ← visible_append, part_append ts (by omega) (by omega)]
    · intro hquiet s hs
      rcases List.mem_cons.mp hs with rfl | hs
      · exact e6 hquiet
      · exact s2.hush hquiet s hs

theorem astSpans_laid {ts : List Token} (hi : Indexed ts) {quiet : Prop} : ∀ {lvl : Nat} {ns : List Node} {prev next : Nat},
    LaidAll ts quiet lvl ns prev next → ∃ ss, astSpans ts ns lvl prev next = some ss ∧ prev < next ∧ next ≤ ts.length ∧
      visible (allToks ss) = visible (part ts (prev + 1) next) ∧ (quiet → ∀ s ∈ ss, Hush s.toks)
  | lvl, _, prev, next, .nil h1 h2 h3 => by
    refine ⟨[.leaf ((splitLines (part ts (prev + 1) next)).map .new) lvl], ?_, h1, h2, ?_, ?_⟩
    · rw [astSpans, slice_part h1 h2]
      rfl
    · rw [allToks_cons, show allToks [] = [] from rfl, List.append_nil]
      change visible (chunkToks ((splitLines (part ts (prev + 1) next)).map .new)) = _
      rw [chunkToks_lines, splitLines_flatten, visible_visible]
    · intro hquiet s hs
      rw [List.mem_singleton.mp hs]
      change Hush (chunkToks ((splitLines (part ts (prev + 1) next)).map .new))
      rw [chunkToks_lines, splitLines_flatten]
      exact .trivia fun k hk => (h3 hquiet).part k (visible_sub hk)
  | lvl, _, prev, next, .cons (a := a) (b := b) (n := n) (r := r) hn hpa hlone hq hr => by
    obtain ⟨ss, s1, s2⟩ := nodeSpans_laid hi hn
    obtain ⟨rest, r1, r2, r3, r4, r5⟩ := astSpans_laid hi hr
    have hle := s2.le
    have hlt := s2.lt
    obtain ⟨pre, p1, p2, p3⟩ := betweenSpans_spec (ts := ts) lvl hpa (by omega) hlone
    obtain ⟨f, q, rfl, hfl⟩ := s2.first
    obtain ⟨l, l1, l2⟩ := s2.last
    refine ⟨pre ++ f :: q ++ rest, ?_, by omega, r3, ?_, ?_⟩
    · rw [astSpans, s1]
      simp only [Option.bind_eq_bind, Option.bind_some, hfl, p1, l1, l2, r1]
      rfl
    · rw [allToks_append, allToks_append, visible_append, visible_append, p2, s2.toks, r4, ← visible_append, ← visible_append,
        part_append ts (by omega) (by omega), part_append ts (by omega) (by omega)]
    · intro hquiet s hs
      rcases List.mem_append.mp hs with hs | hs
      · rcases List.mem_append.mp hs with hs | hs
        · exact .trivia fun k hk => (hq hquiet).part k (p3 s hs k hk)
        · exact s2.hush hquiet s hs
      · exact r5 hquiet s hs

end

end Spans

end PhpLs
