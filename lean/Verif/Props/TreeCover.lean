import Verif.GrammarCover4
import Verif.Props.TreeRange

/-!
# Ranges of syntax trees (C52): parents cover their children

If the tokens of a text follow one another without overlap and the parser reports no error, every node covers its children, up
to the exceptions listed in `Gap` and `Odd`, and the statements of a file are in the order of the text.
-/

namespace PhpLs.Parser

open PhpLs PhpLs.Suggester

/-! ## Specification -/

/-- The order of places in a text, as `(column, line)`: by line, then by column. -/
def Upto (a b : ColLine) : Prop := a.2 < b.2 ∨ (a.2 = b.2 ∧ a.1 ≤ b.1)

/-- The tokens follow one another without overlap. -/
def Spaced : List Token → Prop
  | [] => True
  | [k] => ∃ e, k.end = some e ∧ Upto (k.col, k.line) e
  | k :: k' :: r => (∃ e, k.end = some e ∧ Upto (k.col, k.line) e ∧ Upto e (k'.col, k'.line)) ∧ Spaced (k' :: r)

/-! ## Lines of a given width -/

/-- Places counted as if every line had `w` columns. -/
def wide (w bound : Nat) : Sc := ⟨fun a => a.2 * w + a.1, bound⟩

theorem wide_le {w B : Nat} {a b : ColLine} (h : Upto a b) (ha : a.1 ≤ w) : (wide w B).le a b := by
  show a.2 * w + a.1 ≤ b.2 * w + b.1
  rcases h with h | ⟨h1, h2⟩
  · have := Nat.mul_le_mul_right w (show a.2 + 1 ≤ b.2 from h)
    rw [Nat.add_mul, Nat.one_mul] at this
    omega
  · rw [h1]; omega

theorem upto_of_wide {w B : Nat} {a b : ColLine} (h : (wide w B).le a b) (hb : b.1 < w) : Upto a b := by
  have h : a.2 * w + a.1 ≤ b.2 * w + b.1 := h
  rcases Nat.lt_or_ge a.2 b.2 with h1 | h1
  · exact .inl h1
  · rcases Nat.lt_or_ge b.2 a.2 with h2 | h2
    · have := Nat.mul_le_mul_right w (show b.2 + 1 ≤ a.2 from h2)
      rw [Nat.add_mul, Nat.one_mul] at this
      omega
    · have h3 : a.2 = b.2 := Nat.le_antisymm h2 h1
      rw [h3] at h
      exact .inr ⟨h3, by omega⟩

/-- A width that is larger than the columns of all tokens. -/
def widthOf (l : List Token) : Nat := (l.map fun k => k.col + (k.end.getD (0, 0)).1).sum

/-- A bound above all ends of tokens. -/
def boundOf (w : Nat) (l : List Token) : Nat := (l.map fun k => (wide w 0).en k).sum + 1

private theorem mem_le_sum {f : Token → Nat} : ∀ {l : List Token} {k : Token}, k ∈ l → f k ≤ (l.map f).sum
  | x :: r, k, h => by
    simp only [List.map_cons, List.sum_cons]
    cases h with
    | head => omega
    | tail _ h => have := mem_le_sum (f := f) h; omega

theorem ord_of_spaced {w B : Nat} : ∀ {l : List Token} {p : Nat}, Spaced l → (∀ k ∈ l, k.col + (k.end.getD (0, 0)).1 ≤ w) →
    (∀ k ∈ l, (wide w B).en k < B) → (∀ k ∈ l.head?, p ≤ (wide w B).st k) → (wide w B).Ord p l
  | [], _, _, _, _, _ => trivial
  | [k], p, h, hw, hB, hp => by
    obtain ⟨e, he, h1⟩ := h
    have hk := hw k (.head _)
    rw [he] at hk
    refine ⟨hp k rfl, ?_, hB k (.head _), trivial⟩
    have : (wide w B).le (k.col, k.line) e := wide_le h1 (by simp at hk; show k.col ≤ w; omega)
    simp only [Sc.st, Sc.en, he]
    exact this
  | k :: k' :: r, p, h, hw, hB, hp => by
    obtain ⟨⟨e, he, h1, h2⟩, h3⟩ := h
    have hk := hw k (.head _)
    rw [he] at hk
    refine ⟨hp k rfl, ?_, hB k (.head _), ord_of_spaced h3 (fun x hx => hw x (.tail _ hx)) (fun x hx => hB x (.tail _ hx)) fun x hx => ?_⟩
    · have : (wide w B).le (k.col, k.line) e := wide_le h1 (by simp at hk; show k.col ≤ w; omega)
      simp only [Sc.st, Sc.en, he]
      exact this
    · cases hx
      have : (wide w B).le e (k'.col, k'.line) := wide_le h2 (by simp at hk; omega)
      simp only [Sc.st, Sc.en, he]
      exact this

/-! ## Doc comments -/

private def Docs (a : DocBlock.Acc) : Prop := Sc.Vars a.varDocs ∧ ∀ d ∈ a.properties, ∃ x y z, d = Node.docCommentProperty x y z

private theorem vars_snoc {l : List Node} {x : Token} {y : Option (List TypeRef)} {z : Text} (h : Sc.Vars l) :
    Sc.Vars (l ++ [.docCommentVar x y z]) := fun d hd => by
  rcases List.mem_append.1 hd with hd | hd
  · exact h d hd
  · exact ⟨x, y, z, List.mem_singleton.1 hd⟩

private theorem atSign_docs {U : Unicode} {a a' : DocBlock.Acc} {s s' : DocBlock.DSt} (h : DocBlock.atSign U a s = some (a', s'))
    (ha : Docs a) : Docs a' := by
  unfold DocBlock.atSign at h
  simp only at h
  split at h
  · simp only [Option.bind_eq_bind, Option.bind_eq_some_iff] at h
    obtain ⟨⟨l, k, d, s1⟩, hd, h⟩ := h
    cases h; exact ha
  · split at h
    · simp only [Option.bind_eq_bind, Option.bind_eq_some_iff] at h
      obtain ⟨⟨l, k, d, s1⟩, hd, h⟩ := h
      cases h; exact ha
    · split at h
      · simp only [Option.bind_eq_bind, Option.bind_eq_some_iff] at h
        obtain ⟨⟨l, k, d, s1⟩, hd, h⟩ := h
        cases h; exact ⟨vars_snoc ha.1, ha.2⟩
      · split at h
        · cases h; exact ha
        · split at h
          · simp only [Option.bind_eq_bind, Option.bind_eq_some_iff] at h
            obtain ⟨⟨l, k, d, s1⟩, hd, h⟩ := h
            cases h
            refine ⟨ha.1, fun x hx => ?_⟩
            rcases List.mem_append.1 hx with hx | hx
            · exact ha.2 x hx
            · exact ⟨_, _, _, List.mem_singleton.1 hx⟩
          · cases h; exact ha

private theorem scanLoop_docs (U : Unicode) : ∀ (fuel : Nat) (a a' : DocBlock.Acc) (s : DocBlock.DSt),
    DocBlock.scanLoop U fuel a s = some a' → Docs a → Docs a'
  | 0, _, _, _, h, _ => by cases h
  | fuel + 1, a, a', s, h, ha => by
    rw [DocBlock.scanLoop] at h
    split at h
    · cases h; exact ha
    · split at h
      · simp only [Option.bind_eq_bind, Option.bind_eq_some_iff] at h
        obtain ⟨⟨a1, s1⟩, h1, h⟩ := h
        exact scanLoop_docs U fuel _ _ _ h (atSign_docs h1 ha)
      · split at h
        · exact scanLoop_docs U fuel _ _ _ h ha
        · exact scanLoop_docs U fuel _ _ _ h ha

theorem docNode_cov {c : Sc} (U : Unicode) (k : Token) (n : Node) (h : DocBlock.docNode U k = some n) :
    Cov c.le n ∧ Sc.Vars (varDocs n) := by
  unfold DocBlock.docNode at h
  simp only [Option.bind_eq_bind, Option.bind_eq_some_iff] at h
  obtain ⟨l, hl, a, ha, h⟩ := h
  cases h
  have hd := scanLoop_docs U _ _ _ _ ha ⟨(fun _ h => nomatch h), (fun _ h => nomatch h)⟩
  refine ⟨fun m hb => ?_, hd.1⟩
  cases hb with
  | here => exact ⟨fun _ h => absurd trivial h, fun x _ hg => absurd trivial hg, fun _ h => nomatch h⟩
  | down hc hb =>
    simp only [Node.children] at hc
    rcases List.mem_append.1 hc with hc | hc
    · obtain ⟨a, b, z, rfl⟩ := hd.1 _ hc
      cases hb with
      | here => exact ⟨fun _ h => absurd trivial h, fun x hx => by simp [Node.children] at hx, fun _ h => nomatch h⟩
      | down hc _ => simp [Node.children] at hc
    · obtain ⟨a, b, z, rfl⟩ := hd.2 _ hc
      cases hb with
      | here => exact ⟨fun _ h => absurd trivial h, fun x hx => by simp [Node.children] at hx, fun _ h => nomatch h⟩
      | down hc _ => simp [Node.children] at hc

/-! ## The tree of a text -/

/-- The statements of a run without errors lie one behind another and cover their children, whatever the width of the lines. -/
theorem ast_wide {U : Unicode} {n : Nat} {tokens : List Token} {nodes : List Node} {s : PSt} (ht : Spaced tokens)
    (h : ast U n tokens = .ok nodes s) (he : s.errors = []) {w : Nat} (hw : widthOf tokens ≤ w) :
    ∃ q, (wide w (boundOf w tokens)).NdLR 0 q nodes := by
  unfold ast at h
  split at h
  · cases h
    exact ⟨0, Nat.le_refl _, fun _ h => (nomatch h), List.Pairwise.nil⟩
  · have hord : (wide w (boundOf w tokens)).Ord 0 tokens :=
      ord_of_spaced ht (fun k hk => Nat.le_trans (mem_le_sum (f := fun k => k.col + (k.end.getD (0, 0)).1) hk) hw)
        (fun k hk => Nat.lt_succ_of_le (mem_le_sum (f := fun k => (wide w 0).en k) hk)) (fun _ _ => Nat.zero_le _)
    have := Sc.cov_astLoop (Sc.cov_knot (c := wide w (boundOf w tokens)) (docNode_cov U) n) (p := 0) (new tokens)
      (.inr ⟨rfl, Nat.succ_pos _, hord⟩)
    rw [h] at this
    obtain ⟨q, hq, hat, hok⟩ := this
    rcases hat with ⟨h1, _⟩ | ⟨_, h2, _⟩
    · exact absurd he h1
    · exact ⟨q, hok h2⟩

/-- How wide the lines have to be for the place of the doc comment of a class. -/
def docWidth : Node → Nat
  | .classStatement _ _ _ _ _ _ _ (some d) _ => match d.range with
    | some r => r.startCol + r.endCol
    | none => 0
  | _ => 0

theorem gap_wide {w B : Nat} {m c : Node} (hw : docWidth m ≤ w) (h : ¬ Gap Upto m c) : ¬ Gap (wide w B).le m c := by
  intro hg
  apply h
  clear h
  unfold Gap at hg ⊢
  split
  case h_12 =>
    rename_i d _ _
    simp only at hg
    intro hf
    apply hg
    obtain ⟨r, h1, h2, h3⟩ := hf
    simp only [docWidth, h1] at hw
    exact ⟨r, h1, wide_le h2 (show r.startCol ≤ w by omega), wide_le h3 (show r.endCol ≤ w by omega)⟩
  all_goals first | exact hg | (exfalso; split at hg <;> first | exact hg | (solve_by_elim) | (rename_i h; exact h _ _ _ _ rfl) | (simp_all; done) | grind)

theorem doc_wide {w B : Nat} {m : Node} (hw : docWidth m ≤ w) (h : DocInFront Upto m) : DocInFront (wide w B).le m := by
  cases m
  case classStatement d _ =>
    cases d with
    | none => trivial
    | some d =>
      obtain ⟨r, h1, h2, h3⟩ := h
      simp only [docWidth, h1] at hw
      exact ⟨r, h1, wide_le h2 (show r.startCol ≤ w by omega), wide_le h3 (show r.endCol ≤ w by omega)⟩
  all_goals trivial

/-- **C52**: in the tree of a text that is parsed without errors, the range of a node covers the ranges of its children
(exceptions: `Gap`, and what contains one of the nodes of `Odd`). -/
theorem C52_parents_cover {U : Unicode} {n : Nat} {tokens : List Token} {nodes : List Node} {s : PSt} (ht : Spaced tokens)
    (h : ast U n tokens = .ok nodes s) (he : s.errors = []) {stmt m c : Node} (hst : stmt ∈ nodes) (hb : Below stmt m)
    (hc : c ∈ m.children) (hg : ¬ Gap Upto m c) (hp : Placed c) (hs : Fenced m ∨ ∀ d ∈ m.children, Placed d) {r r' : NodeRange}
    (hr : m.range = some r) (hr' : c.range = some r') : Upto r.start r'.start ∧ Upto r'.end r.end := by
  let w := widthOf tokens + docWidth m + r'.startCol + r.endCol + 1
  obtain ⟨q, hq⟩ := ast_wide ht h he (show widthOf tokens ≤ w by omega)
  have hcov := ((hq.2.1 stmt hst).2.1 m hb).2.1 c hc (gap_wide (by omega) hg) hp hs r r' hr hr'
  exact ⟨upto_of_wide hcov.1 (show r'.startCol < w by omega), upto_of_wide hcov.2 (show r.endCol < w by omega)⟩

/-- **C52**: the range of a node ends behind its start, if it contains none of the nodes of `Odd` or goes from an opening to a
closing token.  The nodes of doc comments are excepted. -/
theorem C52_nodes_ordered {U : Unicode} {n : Nat} {tokens : List Token} {nodes : List Node} {s : PSt} (ht : Spaced tokens)
    (h : ast U n tokens = .ok nodes s) (he : s.errors = []) {stmt m : Node} (hst : stmt ∈ nodes) (hb : Below stmt m)
    (hp : Placed m ∨ Fenced m) (hd : ¬ InDoc m) {r : NodeRange} (hr : m.range = some r) : Upto r.start r.end := by
  let w := widthOf tokens + r.endCol + 1
  obtain ⟨q, hq⟩ := ast_wide ht h he (show widthOf tokens ≤ w by omega)
  exact upto_of_wide (((hq.2.1 stmt hst).2.1 m hb).1 hp hd r hr) (show r.endCol < w by omega)

/-- The range of a declaration covers the token by which it is shown, if the last part of the declaration is at its place. -/
theorem ast_named {U : Unicode} {n : Nat} {tokens : List Token} {nodes : List Node} {s : PSt} (ht : Spaced tokens)
    (h : ast U n tokens = .ok nodes s) (he : s.errors = []) {stmt m : Node} (hst : stmt ∈ nodes) (hb : Below stmt m) {k : Token}
    (hk : nameOf m = some k) (hf : Firm m) (hd : DocInFront Upto m) {r r' : NodeRange} (hr : m.range = some r)
    (hr' : k.range = some r') : Upto r.start r'.start ∧ Upto r'.end r.end := by
  let w := widthOf tokens + docWidth m + r'.startCol + r.endCol + 1
  obtain ⟨q, hq⟩ := ast_wide ht h he (show widthOf tokens ≤ w by omega)
  have hcov := ((hq.2.1 stmt hst).2.1 m hb).2.2 k hk hf (doc_wide (by omega) hd) r r' hr hr'
  exact ⟨upto_of_wide hcov.1 (show r'.startCol < w by omega), upto_of_wide hcov.2 (show r.endCol < w by omega)⟩

theorem upto_trans {a b c : ColLine} (h1 : Upto a b) (h2 : Upto b c) : Upto a c := by
  unfold Upto at *
  omega

/-- **C52**: the same for a class with a doc comment in front of it, whose range starts at the comment. -/
theorem C52_documented_ordered {U : Unicode} {n : Nat} {tokens : List Token} {nodes : List Node} {s : PSt} (ht : Spaced tokens)
    (h : ast U n tokens = .ok nodes s) (he : s.errors = []) {stmt : Node} (hst : stmt ∈ nodes) {t name : Token}
    {ab fi : Option Token} {im : Option (List Node)} {ex : Option Node} {oc cc : Token} {ns : List Node} {d : Node} {ats : List Node}
    (hb : Below stmt (.classStatement t name ab fi im ex (.block oc ns cc) (some d) ats)) (hd : InFront Upto d t)
    (hp : ∀ x ∈ (Node.classStatement t name ab fi im ex (.block oc ns cc) (some d) ats).children, Placed x) {r : NodeRange}
    (hr : (Node.classStatement t name ab fi im ex (.block oc ns cc) (some d) ats).range = some r) : Upto r.start r.end := by
  have hm : Node.block oc ns cc ∈ (Node.classStatement t name ab fi im ex (.block oc ns cc) (some d) ats).children := by
    simp [Node.children]
  have hr' : ∃ r', (Node.block oc ns cc).range = some r' := by
    cases hx : (Node.block oc ns cc).range with
    | some r' => exact ⟨r', rfl⟩
    | none =>
      have hr2 : rangeNN d.range (Node.block oc ns cc).range = some r := by simpa only [Node.range] using hr
      rw [hx] at hr2
      cases hd2 : d.range <;> rw [hd2] at hr2 <;> cases hr2
  obtain ⟨r', hr'⟩ := hr'
  have h1 := C52_parents_cover ht h he hst hb hm (fun hg => hg hd) (hp _ hm) (.inr hp) hr hr'
  have h2 := C52_nodes_ordered ht h he hst (Below.trans hb (.down hm (.here _))) (.inr trivial) id hr'
  exact upto_trans h1.1 (upto_trans h2 h1.2)

/-- **C52**: the range of a statement ends behind its start, and statements are in the order of the text. -/
theorem C52_statements_ordered {U : Unicode} {n : Nat} {tokens : List Token} {nodes : List Node} {s : PSt} (ht : Spaced tokens)
    (h : ast U n tokens = .ok nodes s) (he : s.errors = []) :
    (∀ stmt ∈ nodes, Placed stmt → ∀ r, stmt.range = some r → Upto r.start r.end) ∧
    nodes.Pairwise fun a b => Placed a → Placed b → ∀ r r', a.range = some r → b.range = some r' →
      Upto r.start r'.start ∧ Upto r.end r'.end := by
  constructor
  · intro stmt hst hp r hr
    let w := widthOf tokens + r.endCol + 1
    obtain ⟨q, hq⟩ := ast_wide ht h he (show widthOf tokens ≤ w by omega)
    exact upto_of_wide ((hq.2.1 stmt hst).2.2.1 hp r hr).2.1 (show r.endCol < w by omega)
  · have key : ∀ w, widthOf tokens ≤ w → nodes.Pairwise (wide w (boundOf w tokens)).Before := fun w hw => by
      obtain ⟨q, hq⟩ := ast_wide ht h he hw
      exact hq.2.2
    refine List.pairwise_iff_getElem.2 fun i j hi hj hij p1 p2 r r' e1 e2 => ?_
    let w := widthOf tokens + r'.startCol + r'.endCol + 1
    have := List.pairwise_iff_getElem.1 (key w (by omega)) i j hi hj hij p1 p2 r r' e1 e2
    exact ⟨upto_of_wide this.1 (show r'.startCol < w by omega), upto_of_wide this.2 (show r'.endCol < w by omega)⟩

/-! ## Looking up a position (C46) -/

/-- A tree without the exceptions. -/
structure Regular (n : Node) : Prop where
  placed : Placed n
  covers : ∀ m, Below n m → ∀ c ∈ m.children, ¬ Gap Upto m c
  ranged : ∀ m, Below n m → m.range ≠ none

theorem le_of_upto {a b : ColLine} (h : Upto a b) : Pos.Le ⟨a.2, a.1⟩ ⟨b.2, b.1⟩ := Pos.le_iff.2 h

/-- A position in a node is in all nodes above. -/
theorem around_up {U : Unicode} {n : Nat} {tokens : List Token} {nodes : List Node} {s : PSt} (ht : Spaced tokens)
    (h : ast U n tokens = .ok nodes s) (he : s.errors = []) {stmt m d : Node} (hst : stmt ∈ nodes) (hreg : Regular stmt)
    (hb : Below stmt m) (hd : Below m d) {p : Pos} (hp : Around p d) : Around p m := by
  induction hd with
  | here => exact hp
  | @down m c d hc hd ih =>
    have hbc : Below stmt c := Below.trans hb (.down hc (.here c))
    obtain ⟨r', e', h1, h2⟩ := ih hbc hp
    have pl : ∀ x ∈ m.children, Placed x := fun x hx y hy => hreg.placed y (Below.trans hb (.down hx hy))
    cases hr : m.range with
    | none => exact absurd hr (hreg.ranged m hb)
    | some r =>
      have hcov := C52_parents_cover ht h he hst hb hc (hreg.covers m hb c hc) (pl c hc) (.inr pl) hr e'
      exact ⟨r, hr, (le_of_upto hcov.1).trans h1, h2.trans (le_of_upto hcov.2)⟩

/-- **C46**: in a text that is parsed without errors, the node found at a position is the innermost one: the position is in none
of the nodes below it; and if none is found, no node of the tree contains the position (for statements without the
exceptions of C52). -/
theorem C46_innermost_partial {U : Unicode} {n : Nat} {tokens : List Token} {nodes : List Node} {s : PSt} (ht : Spaced tokens)
    (h : ast U n tokens = .ok nodes s) (he : s.errors = []) (hreg : ∀ stmt ∈ nodes, Regular stmt) {p : Pos} {fuel : Nat}
    (hf : ∀ stmt ∈ nodes, sizeOf stmt < fuel) : ∃ o, findIn p fuel nodes = .ok o ∧ match o with
      | some (m, _) => (∃ stmt ∈ nodes, Below stmt m) ∧ Around p m ∧ ∀ c ∈ m.children, ∀ d, Below c d → ¬ Around p d
      | none => ∀ stmt ∈ nodes, ∀ d, Below stmt d → ¬ Around p d := by
  obtain ⟨o, ho⟩ := C46_ends_partial p fuel nodes hf fun stmt hst m hb => (hreg stmt hst).ranged m hb
  refine ⟨o, ho, ?_⟩
  have hfound := C46_found_partial p fuel nodes o ho
  cases o with
  | none =>
    intro stmt hst d hb hp
    exact (hfound stmt hst).1.not (around_up ht h he hst (hreg stmt hst) (.here stmt) hb hp)
  | some x =>
    obtain ⟨m, way⟩ := x
    obtain ⟨before, top, after, e, hfd, _⟩ := hfound
    have htop : top ∈ nodes := by rw [e]; simp
    have hbelow : ∀ {a b : Node} {w : List Node}, Way p a w b → Below a b := fun hw => by
      induction hw with
      | here n => exact .here n
      | down e _ _ _ ih => exact .down (by rw [e]; simp) ih
    have hb := hbelow hfd.way
    refine ⟨⟨top, htop, hb⟩, hfd.around, fun c hc d hd hp => ?_⟩
    exact (hfd.innermost c hc).not (around_up ht h he htop (hreg top htop) (Below.trans hb (.down hc (.here c))) hd hp)

/-! ## Texts that meet the hypotheses -/

instance : DecidableRel Upto := fun a b => inferInstanceAs (Decidable (a.2 < b.2 ∨ (a.2 = b.2 ∧ a.1 ≤ b.1)))

/-- `Spaced` as a test. -/
def spaced : List Token → Bool
  | [] => true
  | [k] => match k.end with
    | some e => decide (Upto (k.col, k.line) e)
    | none => false
  | k :: k' :: r => (match k.end with
    | some e => decide (Upto (k.col, k.line) e) && decide (Upto e (k'.col, k'.line))
    | none => false) && spaced (k' :: r)

theorem spaced_of : ∀ {l : List Token}, spaced l = true → Spaced l
  | [], _ => trivial
  | [k], h => by
    unfold spaced at h
    cases he : k.end with
    | none => rw [he] at h; cases h
    | some e => rw [he] at h; exact ⟨e, he, of_decide_eq_true h⟩
  | k :: k' :: r, h => by
    unfold spaced at h
    rw [Bool.and_eq_true] at h
    obtain ⟨h1, h2⟩ := h
    refine ⟨?_, spaced_of h2⟩
    cases he : k.end with
    | none => rw [he] at h1; cases h1
    | some e =>
      rw [he] at h1
      simp only [Bool.and_eq_true, decide_eq_true_eq] at h1
      exact ⟨e, rfl, h1.1, h1.2⟩

/-- `Odd` as a test. -/
def isOdd : Node → Bool
  | .namedParameter .. => true
  | .attr .. => true
  | .inlineHtml .. => true
  | .emptyScript => true
  | .docCommentVar .. => true
  | .classStatement _ _ _ _ _ _ _ (some _) _ => true
  | _ => false

theorem isOdd_of {n : Node} (h : Odd n) : isOdd n = true := by
  unfold Odd at h
  split at h
  case h_7 => exact h.elim
  all_goals rfl

/-- Nodes that may have children they do not cover. -/
def gappy : Node → Bool
  | .namedParameter .. => true
  | .attr .. => true
  | .dieStatement .. => true
  | .docComment .. => true
  | .matchExpr .. => true
  | .switchBranch .. => true
  | .functionArgument (some _) _ _ _ _ (some _) _ _ => true
  | .classConstantDefinitionStatement _ _ _ _ (_ :: _) => true
  | .propertyDefinitionStatement _ _ _ _ _ _ (_ :: _) => true
  | .methodDefinitionStatement _ _ _ _ _ _ _ _ _ (_ :: _) => true
  | .namedFunctionDefinitionStatement _ _ _ _ (_ :: _) => true
  | .classStatement _ _ _ _ _ _ _ (some _) _ => true
  | _ => false

theorem gappy_of {m c : Node} (h : Gap Upto m c) : gappy m = true := by
  unfold Gap at h
  split at h
  case h_8 => obtain ⟨x, r, rfl⟩ := List.exists_cons_of_ne_nil (List.ne_nil_of_mem h); rfl
  case h_9 => obtain ⟨x, r, rfl⟩ := List.exists_cons_of_ne_nil (List.ne_nil_of_mem h); rfl
  case h_10 => obtain ⟨x, r, rfl⟩ := List.exists_cons_of_ne_nil (List.ne_nil_of_mem h); rfl
  case h_11 => obtain ⟨x, r, rfl⟩ := List.exists_cons_of_ne_nil (List.ne_nil_of_mem h); rfl
  case h_13 => exact h.elim
  all_goals rfl

/-- `Regular` as a search for exceptions. -/
def regular : Nat → Node → Bool
  | 0, _ => false
  | fuel + 1, n => !isOdd n && !gappy n && n.range.isSome && n.children.all (regular fuel)

theorem regular_of : ∀ (fuel : Nat) (n : Node), regular fuel n = true → Regular n
  | 0, _, h => by cases h
  | fuel + 1, n, h => by
    simp only [regular, Bool.and_eq_true, List.all_eq_true, Bool.not_eq_true'] at h
    have ih := fun c hc => regular_of fuel c (h.2 c hc)
    refine ⟨fun m hb hv => ?_, fun m hb c hc hg => ?_, fun m hb hr => ?_⟩
    · cases hb with
      | here => have := isOdd_of hv; rw [h.1.1.1] at this; cases this
      | down hc hb => exact (ih _ hc).placed m hb hv
    · cases hb with
      | here => have := gappy_of hg; rw [h.1.1.2] at this; cases this
      | down hc' hb => exact (ih _ hc').covers m hb c hc hg
    · cases hb with
      | here => rw [hr] at h; cases h.1.2
      | down hc hb => exact (ih _ hc).ranged m hb hr

/-- How many nodes of the tree have a range and a child with a range. -/
def nested : Nat → Node → Nat
  | 0, _ => 0
  | fuel + 1, n => (if n.range.isSome && n.children.any (fun d => d.range.isSome) then 1 else 0) + (n.children.map (nested fuel)).sum

/-- A text that meets the hypotheses of `C52_parents_cover`, `C52_nodes_ordered`, `C52_statements_ordered` and `C46_innermost_partial`: three statements on several lines,
without odd nodes, with 35 nodes that have children. -/
example : ∃ sc nodes s, Scanner.scan Unicode.ascii
      c!"<?php\nclass A extends B {\n use T;\n public function f(int $a, $b = 1): ?C {\n  return $this->x[$a] ?? g($b, ...$a);\n }\n}\nif ($x): echo 'a', -$b;\nelseif ($y): foreach ($a as $k => $v) {} else: $f = fn($x) => $x ? 1 : [2]; endif;\nuse D\\E, F;" = .ok sc ∧
    Spaced sc.tokens ∧ ast Unicode.ascii 60 sc.tokens = .ok nodes s ∧ s.errors = [] ∧ (∀ n ∈ nodes, Regular n) ∧
    nodes.length = 3 ∧ (nodes.map (nested 60)).sum = 35 := by
  have h : (match Scanner.scan Unicode.ascii
      c!"<?php\nclass A extends B {\n use T;\n public function f(int $a, $b = 1): ?C {\n  return $this->x[$a] ?? g($b, ...$a);\n }\n}\nif ($x): echo 'a', -$b;\nelseif ($y): foreach ($a as $k => $v) {} else: $f = fn($x) => $x ? 1 : [2]; endif;\nuse D\\E, F;" with
    | .ok sc => spaced sc.tokens && (match ast Unicode.ascii 60 sc.tokens with
      | .ok nodes s => s.errors.isEmpty && nodes.all (regular 60) && nodes.length == 3 && (nodes.map (nested 60)).sum == 35
      | _ => false)
    | _ => false) = true := by decide +kernel
  split at h
  · rename_i sc hsc
    rw [Bool.and_eq_true] at h
    obtain ⟨h1, h2⟩ := h
    split at h2
    · rename_i nodes s hn
      simp only [Bool.and_eq_true, beq_iff_eq, List.all_eq_true, List.isEmpty_iff] at h2
      exact ⟨sc, nodes, s, hsc, spaced_of h1, hn, h2.1.1.1, fun x hx => regular_of 60 x (h2.1.1.2 x hx), h2.1.2, h2.2⟩
    · cases h2
  · cases h

/-- `Placed` as a search for exceptions. -/
def placed : Nat → Node → Bool
  | 0, _ => false
  | fuel + 1, n => !isOdd n && n.children.all (placed fuel)

theorem placed_of : ∀ (fuel : Nat) (n : Node), placed fuel n = true → Placed n
  | 0, _, h => by cases h
  | fuel + 1, n, h => by
    simp only [placed, Bool.and_eq_true, List.all_eq_true, Bool.not_eq_true'] at h
    intro m hb hv
    cases hb with
    | here => have := isOdd_of hv; rw [h.1] at this; cases this
    | down hc hb => exact placed_of fuel _ (h.2 _ hc) m hb hv

/-- A text that meets the hypotheses of `C52_documented_ordered`: a class with a doc comment on the line before. -/
example : ∃ sc t name im ex oc ns cc d ats s r, Scanner.scan Unicode.ascii
      c!"<?php\n/** x */\nclass A extends B {\n const C = 1;\n}\n" = .ok sc ∧ Spaced sc.tokens ∧
    ast Unicode.ascii 60 sc.tokens = .ok [.classStatement t name none none im ex (.block oc ns cc) (some d) ats] s ∧ s.errors = [] ∧
    InFront Upto d t ∧ (∀ x ∈ (Node.classStatement t name none none im ex (.block oc ns cc) (some d) ats).children, Placed x) ∧
    (Node.classStatement t name none none im ex (.block oc ns cc) (some d) ats).range = some r := by
  have h : (match Scanner.scan Unicode.ascii c!"<?php\n/** x */\nclass A extends B {\n const C = 1;\n}\n" with
    | .ok sc => spaced sc.tokens && (match ast Unicode.ascii 60 sc.tokens with
      | .ok [.classStatement t _ none none im ex (.block oc ns cc) (some d) _] s => s.errors.isEmpty &&
        (match d.range with
          | some r => decide (r.start.2 < r.end.2 ∨ r.start.2 = r.end.2 ∧ r.start.1 ≤ r.end.1) &&
            decide (r.end.2 < t.line ∨ r.end.2 = t.line ∧ r.end.1 ≤ t.col)
          | none => false) &&
        ([d] ++ ex.toList ++ im.getD [] ++ [Node.block oc ns cc]).all (placed 60) && (Node.block oc ns cc).range.isSome
      | _ => false)
    | _ => false) = true := by decide +kernel
  split at h
  · rename_i sc hsc
    rw [Bool.and_eq_true] at h
    obtain ⟨h1, h2⟩ := h
    split at h2
    · rename_i t name im ex oc ns cc d ats s hn
      simp only [Bool.and_eq_true, List.all_eq_true, List.isEmpty_iff] at h2
      obtain ⟨⟨⟨he, hd⟩, hr⟩, hb⟩ := h2
      obtain ⟨rb, hrb⟩ := Option.isSome_iff_exists.1 hb
      split at hd
      · rename_i r hdr
        simp only [Bool.and_eq_true, decide_eq_true_eq] at hd
        refine ⟨sc, t, name, im, ex, oc, ns, cc, d, ats, s, ⟨r.startCol, r.startLine, rb.endCol, rb.endLine⟩, hsc, spaced_of h1, hn,
          he, ⟨r, hdr, hd⟩, fun x hx => ?_, ?_⟩
        · exact placed_of 60 x (hr x (by simpa [Node.children] using hx))
        · have : rangeNN d.range (Node.block oc ns cc).range = some ⟨r.startCol, r.startLine, rb.endCol, rb.endLine⟩ := by
            rw [hdr, hrb]; rfl
          simpa only [Node.range] using this
      · cases hd
    · cases h2
  · cases h

end PhpLs.Parser
