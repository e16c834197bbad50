/-!
# Results of computations that may panic or not end
-/

namespace PhpLs

/-- The result of a computation: a value, a panic, or `deep`: the recursion is deeper than the bound given.  A computation of
the code that never ends (it overflows the stack) is `deep` for every bound. -/
inductive Out (α : Type) where
  | ok (a : α)
  | panic
  | deep
deriving DecidableEq, Repr

namespace Out

/-- Continue with the value. -/
def bind {α β : Type} (x : Out α) (f : α → Out β) : Out β :=
  match x with
  | ok a => f a
  | panic => .panic
  | deep => .deep

instance : Monad Out where
  pure := ok
  bind := bind

@[simp] theorem pure_eq {α : Type} (a : α) : (pure a : Out α) = ok a := rfl
@[simp] theorem bind_ok {α β : Type} (a : α) (f : α → Out β) : (ok a >>= f) = f a := rfl
@[simp] theorem bind_panic {α β : Type} (f : α → Out β) : (panic >>= f) = panic := rfl
@[simp] theorem bind_deep {α β : Type} (f : α → Out β) : (deep >>= f) = deep := rfl

theorem bind_eq_ok {α β : Type} {x : Out α} {f : α → Out β} {b : β} (h : (x >>= f) = ok b) : ∃ a, x = ok a ∧ f a = ok b := by
  cases x with
  | ok a => exact ⟨a, rfl, h⟩
  | panic => cases h
  | deep => cases h

instance : LawfulMonad Out := LawfulMonad.mk' Out (fun x => by cases x <;> rfl) (fun _ _ => rfl)
  (fun x _ _ => by cases x <;> rfl)

/-- `unwrap`. -/
def ofOption {α : Type} : Option α → Out α
  | some a => ok a
  | none => panic

@[simp] theorem ofOption_some {α : Type} (a : α) : ofOption (some a) = ok a := rfl
@[simp] theorem ofOption_none {α : Type} : ofOption (none : Option α) = panic := rfl

theorem ofOption_ok {α : Type} {o : Option α} {a : α} (h : ofOption o = ok a) : o = some a := by
  cases o with
  | none => cases h
  | some b => injection h with h; rw [h]

/-- If there is a result, it has the property. -/
def OkThat {α : Type} (P : α → Prop) (x : Out α) : Prop := ∀ y, x = .ok y → P y

namespace OkThat

variable {α β σ : Type}

theorem bind {x : Out α} {f : α → Out β} {P : β → Prop} {Q : α → Prop} (h : OkThat Q x) (h' : ∀ y, Q y → OkThat P (f y)) :
    OkThat P (x >>= f) := by
  intro z hz
  obtain ⟨y, hy, hf⟩ := Out.bind_eq_ok hz
  exact h' y (h y hy) z hf

theorem bindOption {o : Option α} {f : α → Out β} {P : β → Prop} (h' : ∀ y, o = some y → OkThat P (f y)) :
    OkThat P (Out.ofOption o >>= f) := by
  intro z hz
  obtain ⟨y, hy, hf⟩ := Out.bind_eq_ok hz
  exact h' y (ofOption_ok hy) z hf

theorem ok {P : α → Prop} {y : α} (h : P y) : OkThat P (.ok y) := by
  intro z hz
  injection hz with hz
  exact hz ▸ h

theorem any (x : Out α) : OkThat (fun _ => True) x := fun _ _ => trivial

theorem panic {P : α → Prop} : OkThat P .panic := fun _ h => by cases h

theorem deep {P : α → Prop} : OkThat P .deep := fun _ h => by cases h

theorem mono {x : Out α} {P Q : α → Prop} (h : OkThat P x) (h' : ∀ y, P y → Q y) : OkThat Q x := fun y hy => h' y (h y hy)

theorem foldlM {P : σ → Prop} {f : σ → α → Out σ} (hf : ∀ s x, P s → OkThat P (f s x)) :
    ∀ (l : List α) (s : σ), P s → OkThat P (l.foldlM f s)
  | [], _, h => OkThat.ok h
  | x :: l, s, h => by
    rw [List.foldlM_cons]
    exact (hf s x h).bind fun y hy => OkThat.foldlM hf l y hy

end OkThat

end Out

end PhpLs
