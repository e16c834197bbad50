/-!
# Maps

`std::collections::HashMap`, as a list of entries with different keys.  A map is only asked for keys, except where the code
iterates over it; there the order of the entries is a parameter of the model (`HashOrder`).
-/

namespace PhpLs

/-- `HashMap<κ, α>`. -/
abbrev Dict (κ α : Type) := List (κ × α)

namespace Dict

variable {κ α : Type} [DecidableEq κ]

/-- `HashMap::get`. -/
def get? (d : Dict κ α) (k : κ) : Option α :=
  match d with
  | [] => none
  | (k', v) :: r => if k' = k then some v else Dict.get? r k

/-- `HashMap::remove`. -/
def remove (d : Dict κ α) (k : κ) : Dict κ α := d.filter fun e => e.1 ≠ k

/-- `HashMap::insert`. -/
def insert (d : Dict κ α) (k : κ) (v : α) : Dict κ α := (k, v) :: Dict.remove d k

/-- `HashMap::extend`: the entries of `e` are inserted. -/
def extend (d e : Dict κ α) : Dict κ α := e.foldr (fun x d => Dict.insert d x.1 x.2) d

/-- The keys are different. -/
def Ok (d : Dict κ α) : Prop := (d.map (·.1)).Nodup

theorem get?_remove (d : Dict κ α) (k k' : κ) : Dict.get? (Dict.remove d k) k' = if k = k' then none else Dict.get? d k' := by
  induction d with
  | nil => simp [remove, get?]
  | cons e d ih =>
    obtain ⟨a, v⟩ := e
    unfold remove at ih ⊢
    by_cases h : a = k
    · subst h
      simp only [ne_eq, not_true_eq_false, decide_false, Bool.false_eq_true, not_false_eq_true, List.filter_cons_of_neg, ih, get?]
      split <;> simp_all
    · simp only [ne_eq, h, not_false_eq_true, decide_true, List.filter_cons_of_pos, get?, ih]
      by_cases h2 : a = k'
      · subst h2
        simp [Ne.symm h]
      · simp [h2]

theorem get?_insert (d : Dict κ α) (k k' : κ) (v : α) :
    Dict.get? (Dict.insert d k v) k' = if k = k' then some v else Dict.get? d k' := by
  simp only [insert, get?, get?_remove]
  split <;> rfl

theorem get?_extend (d e : Dict κ α) (k : κ) :
    Dict.get? (Dict.extend d e) k = match Dict.get? e k with | some v => some v | none => Dict.get? d k := by
  induction e with
  | nil => rfl
  | cons x e ih =>
    have : Dict.extend d (x :: e) = Dict.insert (Dict.extend d e) x.1 x.2 := rfl
    rw [this, get?_insert, ih]
    simp only [get?]
    split <;> rfl

theorem get?_mem {d : Dict κ α} {k : κ} {v : α} (h : Dict.get? d k = some v) : (k, v) ∈ d := by
  induction d with
  | nil => cases h
  | cons e d ih =>
    obtain ⟨a, w⟩ := e
    simp only [get?] at h
    split at h
    · next h2 => injection h with h; simp [h, h2]
    · exact List.mem_cons_of_mem _ (ih h)

theorem mem_get? {d : Dict κ α} (hd : Dict.Ok d) {k : κ} {v : α} (h : (k, v) ∈ d) : Dict.get? d k = some v := by
  induction d with
  | nil => cases h
  | cons e d ih =>
    obtain ⟨a, w⟩ := e
    simp only [Ok, List.map_cons, List.nodup_cons] at hd
    rcases List.mem_cons.1 h with h | h
    · injection h with h1 h2
      subst h1 h2
      simp [get?]
    · have : a ≠ k := by
        intro e
        subst e
        exact hd.1 (List.mem_map.2 ⟨_, h, rfl⟩)
      simp only [get?, if_neg this]
      exact ih hd.2 h

theorem get?_none {d : Dict κ α} {k : κ} : Dict.get? d k = none ↔ ∀ v, (k, v) ∉ d := by
  induction d with
  | nil => simp [get?]
  | cons e d ih =>
    obtain ⟨a, w⟩ := e
    simp only [get?]
    split
    · next h =>
      subst h
      simp only [reduceCtorEq, false_iff, Classical.not_forall]
      exact ⟨w, by simp⟩
    · next h =>
      rw [ih]
      simp only [List.mem_cons, Prod.mk.injEq, not_or, not_and]
      exact forall_congr' fun v => ⟨fun h2 => ⟨fun e => absurd e.symm h, h2⟩, fun h2 => h2.2⟩

theorem ok_nil : Dict.Ok ([] : Dict κ α) := List.nodup_nil

theorem ok_remove {d : Dict κ α} (h : Dict.Ok d) (k : κ) : Dict.Ok (Dict.remove d k) :=
  List.Nodup.sublist (List.Sublist.map _ List.filter_sublist) h

theorem ok_insert {d : Dict κ α} (h : Dict.Ok d) (k : κ) (v : α) : Dict.Ok (Dict.insert d k v) := by
  unfold insert Ok
  rw [List.map_cons, List.nodup_cons]
  refine ⟨?_, ok_remove h k⟩
  intro hm
  obtain ⟨x, hx, he⟩ := List.mem_map.1 hm
  have := (List.mem_filter.1 hx).2
  simp [he] at this

theorem ok_extend {d : Dict κ α} (h : Dict.Ok d) (e : Dict κ α) : Dict.Ok (Dict.extend d e) := by
  induction e with
  | nil => exact h
  | cons x e ih => exact ok_insert ih _ _

end Dict

/-- The order in which a hash map hands out its entries: some permutation, which may depend on the entries. -/
structure HashOrder where
  order : {κ α : Type} → Dict κ α → List (κ × α)
  perm : ∀ {κ α : Type} (d : Dict κ α), (order d).Perm d

/-- The order in which the entries are listed. -/
def HashOrder.id : HashOrder := ⟨fun d => d, fun _ => List.Perm.refl _⟩

/-- The opposite order. -/
def HashOrder.rev : HashOrder := ⟨fun d => d.reverse, fun d => List.reverse_perm d⟩

end PhpLs
