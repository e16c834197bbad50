import Verif.Range

/-!
# C23: the cursor-in-range test is exact
-/

namespace PhpLs

/-- Reading order of positions, stated without the code: first by line, then by character. -/
inductive Pos.Le : Pos → Pos → Prop where
  | line {p q : Pos} : p.line < q.line → Pos.Le p q
  | char {p q : Pos} : p.line = q.line → p.character ≤ q.character → Pos.Le p q

theorem Pos.le_iff {p q : Pos} :
    Pos.Le p q ↔ p.line < q.line ∨ (p.line = q.line ∧ p.character ≤ q.character) := by
  constructor
  · intro h
    cases h with
    | line h => exact .inl h
    | char h1 h2 => exact .inr ⟨h1, h2⟩
  · rintro (h | ⟨h1, h2⟩)
    · exact .line h
    · exact .char h1 h2

/-- The order is a linear one, so "between" means what it should. -/
theorem Pos.Le.refl (p : Pos) : Pos.Le p p := .char rfl (Nat.le_refl _)

theorem Pos.Le.trans {p q r : Pos} (h1 : Pos.Le p q) (h2 : Pos.Le q r) : Pos.Le p r := by
  rw [Pos.le_iff] at *; omega

theorem Pos.Le.total (p q : Pos) : Pos.Le p q ∨ Pos.Le q p := by
  rw [Pos.le_iff, Pos.le_iff]; omega

theorem Pos.Le.antisymm {p q : Pos} (h1 : Pos.Le p q) (h2 : Pos.Le q p) : p = q := by
  rw [Pos.le_iff] at *
  cases p; cases q
  simp only [Pos.mk.injEq] at *
  omega

/-- **C23.**  A position is considered inside of a range iff it is not before its start and not behind its end. -/
theorem C23_in_range_exact (p : Pos) (r : LspRange) :
    inRange p r = true ↔ Pos.Le r.start p ∧ Pos.Le p r.end := by
  rw [Pos.le_iff, Pos.le_iff]
  unfold inRange
  by_cases h1 : p.line > r.end.line <;> by_cases h2 : p.line < r.start.line <;>
    by_cases h3 : p.line > r.start.line <;> by_cases h4 : p.line < r.end.line <;>
    by_cases h5 : p.character < r.start.character <;> by_cases h6 : p.character > r.end.character <;>
    simp [h1, h2, h3, h4, h5, h6] <;> omega

/-- An empty range contains exactly its one position. -/
theorem C23_empty_range (p q : Pos) : inRange p ⟨q, q⟩ = true ↔ p = q := by
  rw [C23_in_range_exact]
  constructor
  · rintro ⟨h1, h2⟩
    exact Pos.Le.antisymm h2 h1
  · rintro rfl
    exact ⟨.refl _, .refl _⟩

/-- A range that lies within another one contains no position the other one does not contain. -/
theorem C23_nested (p : Pos) (r s : LspRange) (h1 : Pos.Le s.start r.start) (h2 : Pos.Le r.end s.end)
    (h : inRange p r = true) : inRange p s = true := by
  rw [C23_in_range_exact] at *
  exact ⟨h1.trans h.1, h.2.trans h2⟩

/-- Two ranges of which one ends before the other one starts have no position in common. -/
theorem C23_disjoint (p : Pos) (r s : LspRange) (h : ¬ Pos.Le s.start r.end) :
    ¬ (inRange p r = true ∧ inRange p s = true) := by
  rw [C23_in_range_exact, C23_in_range_exact]
  rintro ⟨⟨_, h2⟩, h3, _⟩
  exact h (h3.trans h2)

/-- Converting an LSP range to a node range and back loses nothing, nor does the other way round. -/
theorem C23_range_conversion (r : LspRange) (n : NodeRange) :
    getRange (NodeRange.ofLsp r) = r ∧ NodeRange.ofLsp (getRange n) = n := ⟨rfl, rfl⟩

/- Positions inside, on both borders and just outside of a range over three lines. -/
example : inRange ⟨1, 5⟩ ⟨⟨1, 5⟩, ⟨3, 2⟩⟩ = true ∧ inRange ⟨2, 99⟩ ⟨⟨1, 5⟩, ⟨3, 2⟩⟩ = true ∧
    inRange ⟨3, 2⟩ ⟨⟨1, 5⟩, ⟨3, 2⟩⟩ = true ∧ inRange ⟨1, 4⟩ ⟨⟨1, 5⟩, ⟨3, 2⟩⟩ = false ∧
    inRange ⟨3, 3⟩ ⟨⟨1, 5⟩, ⟨3, 2⟩⟩ = false := by decide

/- The hypotheses of `C23_nested` and `C23_disjoint` are met by ranges that are not empty. -/
example : Pos.Le ⟨1, 0⟩ ⟨1, 5⟩ ∧ Pos.Le ⟨1, 8⟩ ⟨2, 0⟩ ∧ inRange ⟨1, 6⟩ ⟨⟨1, 5⟩, ⟨1, 8⟩⟩ = true ∧
    ¬ Pos.Le ⟨4, 0⟩ ⟨3, 7⟩ := by
  simp only [Pos.le_iff]; decide

end PhpLs
