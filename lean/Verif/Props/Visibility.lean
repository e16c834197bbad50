import Verif.Visibility

/-!
# C25: the visibility comparison admits exactly the accessible members

The code compares `member.visibility >= minimum` (`src/environment/visitor/name_resolver.rs` 1056, `src/suggester/mod.rs` 309, 355).  The type has
four values, so case analysis over pairs and triples of them is exhaustive.
-/

namespace PhpLs

/-- Where an access to a member comes from, innermost first: the class itself, a class that is related by inheritance, or
any other place.  Independent of the code. -/
inductive Access where
  | inside
  | related
  | anywhere

/-- PHP's rule: which members may be accessed from where. -/
def Access.Allows : Access → Visibility → Prop
  | .inside, _ => True
  | .related, v => v ≠ .private
  | .anywhere, v => v ≠ .private ∧ v ≠ .protected

/-- The minimum visibility the code asks for at that place. -/
def Access.minimum : Access → Visibility
  | .inside => .private
  | .related => .protected
  | .anywhere => .public

/-- **C25, admission.**  Comparing a member's visibility with the required minimum admits exactly what PHP allows there. -/
theorem C25_admits_exactly (a : Access) (v : Visibility) : v.ge a.minimum = true ↔ a.Allows v := by
  cases a <;> cases v <;> simp [Access.minimum, Access.Allows, Visibility.ge, Visibility.partialCmp]

/-- Asking for the unspecified visibility admits the same members as asking for public ones. -/
theorem C25_unspecified_is_public (v : Visibility) : v.ge .none = v.ge .public := by
  cases v <;> rfl

/-- **C25, order laws of `>=`.**  It is reflexive, total and transitive. -/
theorem C25_ge_total_preorder :
    (∀ a : Visibility, a.ge a = true) ∧ (∀ a b : Visibility, a.ge b = true ∨ b.ge a = true) ∧
      (∀ a b c : Visibility, a.ge b = true → b.ge c = true → a.ge c = true) := by
  refine ⟨?_, ?_, ?_⟩
  · intro a; cases a <;> rfl
  · intro a b; cases a <;> cases b <;> decide
  · intro a b c; cases a <;> cases b <;> cases c <;> decide

/-- `>` is asymmetric on all pairs but the one of an unspecified and a public visibility. -/
theorem C25_gt_asymmetric_partial (a b : Visibility)
    (h : ¬ (a = .none ∧ b = .public)) (h' : ¬ (a = .public ∧ b = .none)) : ¬ (a.gt b = true ∧ b.gt a = true) := by
  revert h h'
  cases a <;> cases b <;> decide

/-- **C25 fails for `>`.**  An unspecified visibility is greater than a public one and the other way round. -/
theorem C25_fails_gt_asymmetric : Visibility.none.gt .public = true ∧ Visibility.public.gt .none = true := by decide

/-- The two comparisons agree with each other away from that pair: `a > b` iff not `b >= a`. -/
theorem C25_gt_iff_not_le (a b : Visibility)
    (h : ¬ (a = .none ∧ b = .public)) (h' : ¬ (a = .public ∧ b = .none)) : a.gt b = true ↔ b.ge a = false := by
  revert h h'
  cases a <;> cases b <;> decide

/-- Reading the visibility off a modifier token keeps the three modifiers apart and takes anything else, `var` and a
missing modifier in particular, as unspecified. -/
theorem C25_of_token (t : Option Token) :
    (Visibility.ofToken t = .private ↔ ∃ k, t = some k ∧ k.t = .kwPrivate) ∧
    (Visibility.ofToken t = .protected ↔ ∃ k, t = some k ∧ k.t = .kwProtected) ∧
    (Visibility.ofToken t = .public ↔ ∃ k, t = some k ∧ k.t = .kwPublic) := by
  cases t with
  | none => simp [Visibility.ofToken]
  | some k =>
    obtain ⟨c, l, t, n, o⟩ := k
    unfold Visibility.ofToken
    cases t <;> simp

/- A protected member is seen from a related class and not from elsewhere. -/
example : Visibility.protected.ge Access.related.minimum = true ∧ Visibility.protected.ge Access.anywhere.minimum = false := by
  decide

/- The hypotheses of `C25_gt_asymmetric_partial` are met by a pair that is ordered. -/
example : Visibility.public.gt .private = true ∧ Visibility.private.gt .public = false := by decide

end PhpLs
