import Verif.Concurrency
import Verif.Runs
import Verif.Props.GlobalTable
import Mathlib.Logic.Hydra

/-!
# C45: handlers that run at the same time
-/

namespace PhpLs.Concurrency

open PhpLs

variable {σ α : Type}

/-! ## Specification -/

/-- Everything that has been asked has been answered. -/
def Cfg.AllDone (c : Cfg σ α) : Prop := ∀ t ∈ c.threads, t.prog.isDone = true

/-- No matter in which order things happen, nothing gets stuck and everything ends: whatever can be reached, as long as
something is not answered it can go on, and it cannot go on for ever without new requests. -/
structure Live (H : (Nat → Prog σ α) → Prop) : Prop where
  goesOn : ∀ (d : σ) (c : Cfg σ α), Reach H (start d) c → ¬ c.AllDone → ∃ c', Step c c'
  ends : WellFounded fun c' c : Cfg σ α => Step c c'

/-- The state after the requests `order` have been served one after the other. -/
def after (body : Nat → Body σ α) (d : σ) (order : List Nat) : σ := order.foldl (fun s i => ((body i).eval s).1) d

/-- What happened is what happens if the requests `order` are served one after the other, from the state `d`; the last of
them may still be running. -/
structure Serial (d : σ) (body : Nat → Body σ α) (c : Cfg σ α) (order : List Nat) : Prop where
  /-- Nobody is served twice. -/
  once : order.Nodup
  /-- Between two requests the state is that after the requests served so far. -/
  idle : c.owner .state = none → c.data = after body d order
  /-- A request that is being served is the last one.  In the end it leaves the state and gives the answer of a request that
  is alone. -/
  busy : ∀ i, c.owner .state = some i → ∃ (o : List Nat) (b : Body σ α), order = o ++ [i] ∧ (∃ t ∈ c.threads, t.id = i ∧ t.prog = b.prog) ∧
    b.eval c.data = (body i).eval (after body d o)
  /-- Every answer is the one that is given to the request in its turn; everybody else is still waiting. -/
  answers : ∀ t ∈ c.threads, (t.prog = single (body t.id) t.id ∧ t.id ∉ order) ∨ c.owner .state = some t.id ∨
    ∃ o1 o2, order = o1 ++ t.id :: o2 ∧ t.prog = .done ((body t.id).eval (after body d o1)).2

/-! ## Deadlocks -/

/-- The state is locked before the results. -/
def rank : Lk → Nat
  | .state => 0
  | .results _ => 1

/-- With the mutexes `held`, the rest of a program keeps to the rules: mutexes are locked in their order and given back,
tasks are spawned and awaited without holding one, and by handlers only.  `P` says what may be done with the data while some
mutexes are held. -/
def Disc (P : List Lk → (σ → σ) → Prop) : Bool → List Lk → Prog σ α → Prop
  | _, held, .done _ => held = []
  | top, held, .lock l k => (∀ h ∈ held, rank h < rank l) ∧ Disc P top (l :: held) k
  | top, held, .unlock l k => l ∈ held ∧ Disc P top (held.erase l) k
  | top, held, .run f k => P held f ∧ ∀ s, Disc P top held (k s)
  | top, held, .fork n ts k => top = true ∧ held = [] ∧ (∀ j, j < n → Disc P false [] (ts j)) ∧ Disc P top [] k
  | top, held, .wait k => top = true ∧ held = [] ∧ Disc P top [] k

variable {P : List Lk → (σ → σ) → Prop}

/-- Holds for everything that can be reached. -/
structure Inv (P : List Lk → (σ → σ) → Prop) (c : Cfg σ α) : Prop where
  ids : c.threads.Pairwise fun a b => a.id ≠ b.id
  fresh : ∀ t ∈ c.threads, t.id < c.next
  owners : ∀ l i, c.owner l = some i → ∃ t ∈ c.threads, t.id = i
  disc : ∀ t ∈ c.threads, ∃ held, held.Nodup ∧ Disc P t.parent.isNone held t.prog ∧ ∀ l, l ∈ held ↔ c.owner l = some t.id

theorem inv_start (d : σ) : Inv P (start d : Cfg σ α) where
  ids := List.Pairwise.nil
  fresh := fun _ h => nomatch h
  owners := fun _ _ h => nomatch h
  disc := fun _ h => nomatch h

theorem inv_arrive {c : Cfg σ α} (h : Inv P c) {p : Nat → Prog σ α} (hp : ∀ n, Disc P true [] (p n)) : Inv P (arrive p c) where
  ids := by
    refine List.pairwise_append.2 ⟨h.ids, List.pairwise_singleton _ _, fun a ha b hb => ?_⟩
    cases List.mem_singleton.1 hb
    exact Nat.ne_of_lt (h.fresh a ha)
  fresh := by
    intro t ht
    rcases List.mem_append.1 ht with ht | ht
    · exact Nat.lt_succ_of_lt (h.fresh t ht)
    · cases List.mem_singleton.1 ht
      exact Nat.lt_succ_self _
  owners := fun l i e => by
    obtain ⟨t, ht, e⟩ := h.owners l i e
    exact ⟨t, List.mem_append_left _ ht, e⟩
  disc := by
    intro t ht
    rcases List.mem_append.1 ht with ht | ht
    · exact h.disc t ht
    · cases List.mem_singleton.1 ht
      refine ⟨[], List.nodup_nil, hp _, fun l => ⟨(fun h => nomatch h), fun e => ?_⟩⟩
      obtain ⟨t, ht, e'⟩ := h.owners l _ e
      exact absurd e' (Nat.ne_of_lt (h.fresh t ht))

private theorem mem_mid {β : Type} {a b : β} {l1 l2 : List β} : a ∈ l1 ++ b :: l2 ↔ a = b ∨ a ∈ l1 ++ l2 := by
  simp only [List.mem_append, List.mem_cons]
  constructor
  · rintro (h | h | h)
    · exact .inr (.inl h)
    · exact .inl h
    · exact .inr (.inr h)
  · rintro (h | h | h)
    · exact .inr (.inl h)
    · exact .inl h
    · exact .inr (.inr h)

private theorem ids_mid {l1 l2 : List (Thread σ α)} {a b : Thread σ α} (e : a.id = b.id)
    (h : (l1 ++ a :: l2).Pairwise fun a b => a.id ≠ b.id) : (l1 ++ b :: l2).Pairwise fun a b => a.id ≠ b.id := by
  rw [List.pairwise_append, List.pairwise_cons] at h ⊢
  refine ⟨h.1, ⟨fun x hx => e ▸ h.2.1.1 x hx, h.2.1.2⟩, fun x hx y hy => ?_⟩
  rcases List.mem_cons.1 hy with rfl | hy
  · exact e ▸ h.2.2 x hx a List.mem_cons_self
  · exact h.2.2 x hx y (List.mem_cons_of_mem _ hy)

private theorem other_id {l1 l2 : List (Thread σ α)} {a x : Thread σ α}
    (h : (l1 ++ a :: l2).Pairwise fun a b => a.id ≠ b.id) (hx : x ∈ l1 ++ l2) : x.id ≠ a.id := by
  rw [List.pairwise_append, List.pairwise_cons] at h
  rcases List.mem_append.1 hx with hx | hx
  · exact h.2.2 x hx a List.mem_cons_self
  · exact fun e => h.2.1.1 x hx e.symm

/-- A step of one thread that keeps its number, with the mutexes `o'`. -/
private theorem inv_mid {d d' : σ} {o o' : Lk → Option Nat} {l1 l2 : List (Thread σ α)} {n i : Nat} {p : Option Nat}
    {q q' : Prog σ α} (h : Inv P ⟨d, o, l1 ++ ⟨i, p, q⟩ :: l2, n⟩)
    (ho : ∀ l j, j ≠ i → (o' l = some j ↔ o l = some j))
    (hq : ∀ held : List Lk, held.Nodup → Disc P p.isNone held q → (∀ l, l ∈ held ↔ o l = some i) →
      ∃ held' : List Lk, held'.Nodup ∧ Disc P p.isNone held' q' ∧ ∀ l, l ∈ held' ↔ o' l = some i) :
    Inv P ⟨d', o', l1 ++ ⟨i, p, q'⟩ :: l2, n⟩ where
  ids := ids_mid (a := ⟨i, p, q⟩) rfl h.ids
  fresh := by
    intro t ht
    rcases mem_mid.1 ht with rfl | ht
    · exact h.fresh ⟨i, p, q⟩ (mem_mid.2 (.inl rfl))
    · exact h.fresh t (mem_mid.2 (.inr ht))
  owners := by
    intro l j e
    by_cases hj : j = i
    · exact ⟨_, mem_mid.2 (.inl rfl), hj.symm⟩
    · obtain ⟨t, ht, e'⟩ := h.owners l j ((ho l j hj).1 e)
      rcases mem_mid.1 ht with rfl | ht
      · exact absurd e'.symm hj
      · exact ⟨t, mem_mid.2 (.inr ht), e'⟩
  disc := by
    intro t ht
    rcases mem_mid.1 ht with rfl | ht
    · obtain ⟨held, h1, h2, h3⟩ := h.disc ⟨i, p, q⟩ (mem_mid.2 (.inl rfl))
      exact hq held h1 h2 h3
    · obtain ⟨held, h1, h2, h3⟩ := h.disc t (mem_mid.2 (.inr ht))
      exact ⟨held, h1, h2, fun l => (h3 l).trans (ho l t.id (other_id h.ids ht)).symm⟩

theorem inv_step {c c' : Cfg σ α} (h : Inv P c) (hs : Step c c') : Inv P c' := by
  cases hs with
  | lock hl =>
    rename_i d o l1 l2 n i p l k
    refine inv_mid h (fun l' j hj => ?_) (fun held h1 h2 h3 => ⟨l :: held, ?_, h2.2, fun l' => ?_⟩)
    · unfold setOwner
      split
      · rename_i e; subst e; rw [hl]; exact ⟨fun e => absurd (Option.some.inj e).symm hj, (fun e => nomatch e)⟩
      · exact Iff.rfl
    · refine List.nodup_cons.2 ⟨fun hm => ?_, h1⟩
      exact Nat.lt_irrefl _ (h2.1 l hm)
    · unfold setOwner
      by_cases e : l' = l
      · simp [e]
      · simp only [List.mem_cons, e, false_or, if_false]
        exact h3 l'
  | unlock hl =>
    rename_i d o l1 l2 n i p l k
    refine inv_mid h (fun l' j hj => ?_) (fun held h1 h2 h3 => ⟨held.erase l, h1.erase l, h2.2, fun l' => ?_⟩)
    · unfold setOwner
      split
      · rename_i e; subst e; rw [hl]; exact ⟨(fun e => nomatch e), fun e => absurd (Option.some.inj e).symm hj⟩
      · exact Iff.rfl
    · unfold setOwner
      rw [h1.mem_erase_iff, h3 l']
      by_cases e : l' = l
      · simp [e]
      · simp [e]
  | run =>
    exact inv_mid h (fun _ _ _ => Iff.rfl) (fun held h1 h2 h3 => ⟨held, h1, h2.2 _, h3⟩)
  | wait hk =>
    exact inv_mid h (fun _ _ _ => Iff.rfl) (fun held h1 h2 h3 => ⟨[], List.nodup_nil, h2.2.2, fun l => by
      rw [← h3 l, h2.2.1]⟩)
  | fork =>
    rename_i d o l1 l2 n i m p ts k
    have hw : Inv P ⟨d, o, l1 ++ ⟨i, p, .wait k⟩ :: l2, n⟩ :=
      inv_mid h (fun _ _ _ => Iff.rfl) (fun held h1 h2 h3 => ⟨[], List.nodup_nil, ⟨h2.1, rfl, h2.2.2.2⟩, fun l => by
        rw [← h3 l, h2.2.1]⟩)
    have hts : ∀ j, j < m → Disc P false [] (ts j) := by
      obtain ⟨held, _, h2, _⟩ := h.disc ⟨i, p, .fork m ts k⟩ (mem_mid.2 (.inl rfl))
      exact h2.2.2.1
    have hid : ∀ t ∈ tasks i n m ts, n ≤ t.id ∧ t.id < n + m ∧ t.parent = some i ∧ ∃ j, j < m ∧ t.prog = ts j := by
      intro t ht
      obtain ⟨j, hj, rfl⟩ := List.mem_map.1 ht
      have := List.mem_range.1 hj
      exact ⟨by simp, by simp only; omega, rfl, j, this, rfl⟩
    refine ⟨List.pairwise_append.2 ⟨hw.ids, ?_, fun a ha b hb => ?_⟩, ?_, ?_, ?_⟩
    · unfold tasks
      rw [List.pairwise_map]
      exact List.nodup_range.imp (fun h => by simp only; omega)
    · have h1 := hw.fresh a ha
      have h2 := (hid b hb).1
      simp only at h1
      omega
    · intro t ht
      rcases List.mem_append.1 ht with ht | ht
      · have := hw.fresh t ht; simp only at this ⊢; omega
      · exact (hid t ht).2.1
    · intro l j e
      obtain ⟨t, ht, e'⟩ := hw.owners l j e
      exact ⟨t, List.mem_append_left _ ht, e'⟩
    · intro t ht
      rcases List.mem_append.1 ht with ht | ht
      · exact hw.disc t ht
      · obtain ⟨h1, h2, h3, j, h4, h5⟩ := hid t ht
        refine ⟨[], List.nodup_nil, ?_, fun l => ⟨(fun h => nomatch h), fun e => ?_⟩⟩
        · rw [h3, h5]; exact hts j h4
        · obtain ⟨u, hu, e'⟩ := hw.owners l _ e
          have := hw.fresh u hu
          simp only at this
          omega

/-- Every handler keeps to the rules. -/
def Disciplined (P : List Lk → (σ → σ) → Prop) (H : (Nat → Prog σ α) → Prop) : Prop := ∀ p, H p → ∀ n, Disc P true [] (p n)

theorem inv_reach {H : (Nat → Prog σ α) → Prop} (hH : Disciplined P H) {c c' : Cfg σ α} (hr : Reach H c c') (hc : Inv P c) : Inv P c' := by
  induction hr with
  | refl => exact hc
  | step _ hs ih => exact inv_step ih hs
  | arrive _ hp ih => exact inv_arrive ih (hH _ hp)

private theorem step_lock {c : Cfg σ α} {t : Thread σ α} {l : Lk} {k : Prog σ α} (ht : t ∈ c.threads) (e : t.prog = .lock l k)
    (h : c.owner l = none) : ∃ c', Step c c' := by
  obtain ⟨l1, l2, e'⟩ := List.append_of_mem ht
  obtain ⟨d, o, ts, n⟩ := c
  obtain ⟨i, p, q⟩ := t
  simp only at e e' h
  subst e e'
  exact ⟨_, .lock h⟩

private theorem step_unlock {c : Cfg σ α} {t : Thread σ α} {l : Lk} {k : Prog σ α} (ht : t ∈ c.threads) (e : t.prog = .unlock l k)
    (h : c.owner l = some t.id) : ∃ c', Step c c' := by
  obtain ⟨l1, l2, e'⟩ := List.append_of_mem ht
  obtain ⟨d, o, ts, n⟩ := c
  obtain ⟨i, p, q⟩ := t
  simp only at e e' h
  subst e e'
  exact ⟨_, .unlock h⟩

private theorem step_run {c : Cfg σ α} {t : Thread σ α} {f : σ → σ} {k : σ → Prog σ α} (ht : t ∈ c.threads)
    (e : t.prog = .run f k) : ∃ c', Step c c' := by
  obtain ⟨l1, l2, e'⟩ := List.append_of_mem ht
  obtain ⟨d, o, ts, n⟩ := c
  obtain ⟨i, p, q⟩ := t
  simp only at e e'
  subst e e'
  exact ⟨_, .run⟩

private theorem step_fork {c : Cfg σ α} {t : Thread σ α} {m : Nat} {ts : Nat → Prog σ α} {k : Prog σ α} (ht : t ∈ c.threads)
    (e : t.prog = .fork m ts k) : ∃ c', Step c c' := by
  obtain ⟨l1, l2, e'⟩ := List.append_of_mem ht
  obtain ⟨d, o, ts, n⟩ := c
  obtain ⟨i, p, q⟩ := t
  simp only at e e'
  subst e e'
  exact ⟨_, .fork⟩

private theorem step_wait {c : Cfg σ α} {t : Thread σ α} {k : Prog σ α} (ht : t ∈ c.threads) (e : t.prog = .wait k)
    (h : ∀ u ∈ c.threads, u.parent = some t.id → u.prog.isDone = true) : ∃ c', Step c c' := by
  obtain ⟨l1, l2, e'⟩ := List.append_of_mem ht
  obtain ⟨d, o, ts, n⟩ := c
  obtain ⟨i, p, q⟩ := t
  simp only at e e' h
  subst e e'
  exact ⟨_, .wait fun u hu => h u (mem_mid.2 (.inr hu))⟩

/-- A thread that holds a mutex of the last rank, or one after which all others are free, can go on. -/
private theorem holder_goesOn {c : Cfg σ α} {t : Thread σ α} {held : List Lk} (ht : t ∈ c.threads)
    (h1 : Disc P t.parent.isNone held t.prog) (h2 : ∀ l, l ∈ held ↔ c.owner l = some t.id) {l : Lk} (hl : l ∈ held)
    (hfree : ∀ l', rank l < rank l' → c.owner l' = none) : ∃ c', Step c c' := by
  cases hp : t.prog with
  | done a => rw [hp] at h1; cases (show held = [] from h1); cases hl
  | lock l' k => rw [hp] at h1; exact step_lock ht hp (hfree l' (h1.1 l hl))
  | unlock l' k => rw [hp] at h1; exact step_unlock ht hp ((h2 l').1 h1.1)
  | run f k => exact step_run ht hp
  | fork m ts k => exact step_fork ht hp
  | wait k => rw [hp] at h1; rw [h1.2.1] at hl; cases hl

/-- A task, or a handler that is not waiting for one, can go on if all mutexes are free. -/
private theorem free_goesOn {c : Cfg σ α} (hfree : ∀ l, c.owner l = none) {t : Thread σ α} (ht : t ∈ c.threads)
    (h1 : ∃ held, held.Nodup ∧ Disc P t.parent.isNone held t.prog ∧ ∀ l, l ∈ held ↔ c.owner l = some t.id)
    (hd : t.prog.isDone = false) (hw : t.parent.isNone = false) : ∃ c', Step c c' := by
  obtain ⟨held, _, h1, h2⟩ := h1
  cases hp : t.prog with
  | done a => rw [hp] at hd; cases hd
  | lock l k => exact step_lock ht hp (hfree l)
  | unlock l k =>
    rw [hp] at h1
    have := (h2 l).1 h1.1
    rw [hfree l] at this
    cases this
  | run f k => exact step_run ht hp
  | fork m ts k => exact step_fork ht hp
  | wait k => rw [hp, hw] at h1; cases h1.1

theorem goesOn_of_inv {c : Cfg σ α} (h : Inv P c) (hn : ¬ c.AllDone) : ∃ c', Step c c' := by
  by_cases hr : ∃ r i, c.owner (.results r) = some i
  · obtain ⟨r, i, e⟩ := hr
    obtain ⟨t, ht, rfl⟩ := h.owners _ _ e
    obtain ⟨held, _, h1, h2⟩ := h.disc t ht
    refine holder_goesOn ht h1 h2 ((h2 _).2 e) fun l' hl' => ?_
    cases l' <;> simp [rank] at hl'
  · have hr' : ∀ r, c.owner (.results r) = none := fun r => by
      cases hx : c.owner (.results r) with
      | none => rfl
      | some i => exact absurd ⟨r, i, hx⟩ hr
    cases hs : c.owner .state with
    | some i =>
      obtain ⟨t, ht, rfl⟩ := h.owners _ _ hs
      obtain ⟨held, _, h1, h2⟩ := h.disc t ht
      refine holder_goesOn ht h1 h2 ((h2 _).2 hs) fun l' hl' => ?_
      cases l' with
      | state => simp [rank] at hl'
      | results r => exact hr' r
    | none =>
      have hfree : ∀ l, c.owner l = none := fun l => by cases l with | state => exact hs | results r => exact hr' r
      have : ∃ t ∈ c.threads, t.prog.isDone = false := by
        apply Classical.byContradiction
        intro hx
        refine hn fun t ht => ?_
        cases hd : t.prog.isDone with
        | true => rfl
        | false => exact absurd ⟨t, ht, hd⟩ hx
      obtain ⟨t, ht, hd⟩ := this
      by_cases hk : ∃ u ∈ c.threads, u.prog.isDone = false ∧ u.parent.isNone = false
      · obtain ⟨u, hu, h1, h2⟩ := hk
        exact free_goesOn hfree hu (h.disc u hu) h1 h2
      · obtain ⟨held, _, h1, h2⟩ := h.disc t ht
        cases hp : t.prog with
        | done a => rw [hp] at hd; cases hd
        | lock l k => exact step_lock ht hp (hfree l)
        | unlock l k =>
          rw [hp] at h1
          have := (h2 l).1 h1.1
          rw [hfree l] at this
          cases this
        | run f k => exact step_run ht hp
        | fork m ts k => exact step_fork ht hp
        | wait k =>
          refine step_wait ht hp fun u hu hpar => ?_
          cases hd' : u.prog.isDone with
          | true => rfl
          | false => exact absurd ⟨u, hu, hd', by rw [hpar]; rfl⟩ hk

/-! ## Everything ends -/

/-- What a program may become, or spawn. -/
inductive Sub : Prog σ α → Prog σ α → Prop where
  | lock {l : Lk} {k : Prog σ α} : Sub k (.lock l k)
  | unlock {l : Lk} {k : Prog σ α} : Sub k (.unlock l k)
  | run {f : σ → σ} {k : σ → Prog σ α} (s : σ) : Sub (k s) (.run f k)
  | task {n : Nat} {ts : Nat → Prog σ α} {k : Prog σ α} (j : Nat) : Sub (ts j) (.fork n ts k)
  | fork {n : Nat} {ts : Nat → Prog σ α} {k : Prog σ α} : Sub (.wait k) (.fork n ts k)
  | wait {k : Prog σ α} : Sub k (.wait k)

theorem sub_wf : WellFounded (Sub : Prog σ α → Prog σ α → Prop) := by
  refine ⟨fun p => ?_⟩
  induction p with
  | done a => exact ⟨_, fun _ h => nomatch h⟩
  | lock l k ih => exact ⟨_, fun _ h => by cases h; exact ih⟩
  | unlock l k ih => exact ⟨_, fun _ h => by cases h; exact ih⟩
  | run f k ih => exact ⟨_, fun _ h => by cases h; exact ih _⟩
  | wait k ih => exact ⟨_, fun _ h => by cases h; exact ih⟩
  | fork n ts k ih1 ih2 =>
    refine ⟨_, fun _ h => ?_⟩
    cases h with
    | task j => exact ih1 j
    | fork => exact ⟨_, fun _ h => by cases h; exact ih2⟩

/-- The programs of the threads. -/
private def progs (l : List (Thread σ α)) : Multiset (Prog σ α) := (l.map (·.prog) : List (Prog σ α))

private theorem progs_mid (l1 l2 : List (Thread σ α)) (t : Thread σ α) : progs (l1 ++ t :: l2) = progs (l1 ++ l2) + {t.prog} := by
  unfold progs
  rw [List.map_append, List.map_cons, List.map_append, Multiset.coe_eq_coe.2 List.perm_middle, ← Multiset.cons_coe,
    ← Multiset.singleton_add, add_comm]

private theorem cut_one {l1 l2 : List (Thread σ α)} {t t' : Thread σ α} (h : Sub t'.prog t.prog) :
    Relation.CutExpand Sub (progs (l1 ++ t' :: l2)) (progs (l1 ++ t :: l2)) := by
  rw [progs_mid, progs_mid]
  exact Relation.cutExpand_add_single _ h

theorem step_wf : WellFounded fun c' c : Cfg σ α => Step c c' := by
  refine Subrelation.wf (r := InvImage (Relation.CutExpand Sub) fun c : Cfg σ α => progs c.threads) ?_
    (InvImage.wf _ sub_wf.cutExpand)
  intro c' c hs
  cases hs with
  | lock _ => exact cut_one .lock
  | unlock _ => exact cut_one .unlock
  | run => exact cut_one (.run _)
  | wait _ => exact cut_one .wait
  | fork =>
    rename_i d o l1 l2 n i m p ts k
    refine ⟨.wait k ::ₘ progs (tasks i n m ts), .fork m ts k, fun q hq => ?_, ?_⟩
    · rcases Multiset.mem_cons.1 hq with rfl | hq
      · exact .fork
      · obtain ⟨t, ht, rfl⟩ := List.mem_map.1 (Multiset.mem_coe.1 hq)
        obtain ⟨j, _, rfl⟩ := List.mem_map.1 ht
        exact .task j
    · have e : ∀ a b : List (Thread σ α), progs (a ++ b) = progs a + progs b := fun a b => by
        unfold progs; rw [List.map_append, ← Multiset.coe_add]
      simp only
      rw [e, progs_mid, progs_mid, ← Multiset.singleton_add]
      simp only
      ac_rfl

theorem live_of_disciplined {H : (Nat → Prog σ α) → Prop} (hH : Disciplined P H) : Live H :=
  ⟨fun d _ hr hn => goesOn_of_inv (inv_reach hH hr (inv_start d)) hn, step_wf⟩


/-! ## The handlers keep to the rules -/

/-- The state is changed only by somebody who holds it. -/
def Guards (held : List Lk) (f : Shared → Shared) : Prop := .state ∈ held ∨ ∀ s, (f s).st = s.st

theorem body_disc {P : List Lk → (σ → σ) → Prop} : ∀ (b : Body σ α), (∀ f, P [.state] f) → Disc P true [.state] b.prog
  | .ret _, _ => ⟨List.mem_cons_self, rfl⟩
  | .run _ k, h => ⟨h _, fun s => body_disc (k s) h⟩

theorem single_disc {P : List Lk → (σ → σ) → Prop} (b : Body σ α) (h : ∀ f, P [.state] f) (n : Nat) :
    Disc P true [] (single b n) := ⟨(fun _ h => nomatch h), body_disc b h⟩

variable {h : Host} {disk : Text → Option Text} {broken : Backend → Backend} {R : Request → Prop}

/-- What the handlers do with the data is allowed. -/
structure Allowed (h : Host) (disk : Text → Option Text) (broken : Backend → Backend) (R : Request → Prop)
    (P : List Lk → (Shared → Shared) → Prop) : Prop where
  id : ∀ held, P held id
  emptied : ∀ r, P [] (emptied r)
  searched : ∀ r f content ast range errors, disk f = some content → Backend.sourceToAst h content = .ok (some (ast, range, errors)) →
    P [.results r, .state] (searched h broken r f ast)
  applied : ∀ r, R r → P [.state] (applied (r.effect h) broken)

variable {Q : List Lk → (Shared → Shared) → Prop}

theorem pauses_disc (hid : ∀ held, Q held id) {b : Body Shared Reply} (hb : Disc Q true [.state] b.prog) :
    ∀ n, Disc Q true [.state] (pauses b n).prog
  | 0 => hb
  | n + 1 => ⟨hid _, fun _ => pauses_disc hid hb n⟩

theorem section_disc (hid : ∀ held, Q held id) {f : Backend → Out (Backend × Reply)} (hf : Q [.state] (applied f broken)) (n : Nat) :
    Disc Q true [.state] (section' f broken n).prog := by
  refine ⟨hf, fun s => ?_⟩
  beta_reduce
  split
  · exact pauses_disc hid (b := .ret _) ⟨List.mem_cons_self, rfl⟩ n
  · exact ⟨List.mem_cons_self, rfl⟩

theorem body_allowed (ha : Allowed h disk broken R Q) (r : Request) (hr : R r) : Disc Q true [.state] (r.body h broken).prog := by
  have hs := fun n => section_disc (n := n) ha.id (ha.applied r hr)
  cases r <;> first | exact hs 0 | exact hs 1 | exact ⟨ha.id _, fun s => pauses_disc ha.id (hs 0) _⟩

theorem searchTask_disc (ha : Allowed h disk broken R Q) (name : Text) (r : Nat) (f : Text × NodeId) :
    Disc Q false [] (searchTask h disk broken name r f) := by
  unfold searchTask
  split
  · rfl
  · next content hd =>
    split
    · refine ⟨(fun _ h => nomatch h), ?_⟩
      split
      · next ast range errors hp =>
        refine ⟨fun l hl => ?_, ha.searched r _ content ast range errors hd hp, fun s => ⟨?_, ?_, ?_⟩⟩
        · cases List.mem_singleton.1 hl; exact Nat.zero_lt_one
        · simp
        · simp
        · simp [Disc]
      · exact ⟨List.mem_cons_self, rfl⟩
    · rfl

theorem searchAll_disc (ha : Allowed h disk broken R Q) (name : Text) (r : Nat) {k : Prog Shared Reply} (hk : Disc Q true [] k) :
    Disc Q true [] (searchAll h disk broken name r k) := by
  refine ⟨(fun _ h => nomatch h), ha.id _, fun s => ⟨List.mem_cons_self, ha.emptied r, fun _ =>
    ⟨rfl, rfl, fun j _ => ?_, hk⟩⟩⟩
  beta_reduce
  split
  · exact searchTask_disc ha ..
  · rfl

theorem handlers_disc (ha : Allowed h disk broken R Q) : Disciplined Q (Handler h disk broken R) := by
  intro p hp n
  cases hp with
  | single r hr => exact ⟨(fun _ h => nomatch h), body_allowed ha r hr⟩
  | references p path =>
    refine ⟨(fun _ h => nomatch h), ha.id _, fun s => ?_⟩
    beta_reduce
    split
    · exact ⟨List.mem_cons_self, rfl⟩
    · refine ⟨List.mem_cons_self, searchAll_disc ha _ _ ⟨(fun _ h => nomatch h), ha.id _, fun s =>
        ⟨List.mem_cons_self, ?_⟩⟩⟩
      simp [Disc]
    · exact ⟨List.mem_cons_self, rfl⟩
  | rename p path =>
    refine ⟨(fun _ h => nomatch h), ha.id _, fun s => ?_⟩
    beta_reduce
    split
    · exact ⟨List.mem_cons_self, rfl⟩
    · refine ⟨List.mem_cons_self, (fun _ h => by simp at h), ha.id _, fun s => ?_⟩
      beta_reduce
      split
      · exact ⟨List.mem_cons_self, by simp [Disc]⟩
      · refine ⟨List.mem_cons_self, ?_⟩
        simp only [List.erase_cons_head]
        refine searchAll_disc ha _ _ ⟨(fun _ h => nomatch h), ha.id _, fun s => ⟨List.mem_cons_self, ?_⟩⟩
        simp [Disc]

theorem handlers_disciplined : Disciplined Guards (Handler h disk broken R) :=
  handlers_disc ⟨fun _ => .inr fun _ => rfl, fun _ => .inr fun _ => rfl, fun _ _ _ _ _ _ _ _ => .inl (by simp),
    fun _ _ => .inl List.mem_cons_self⟩

/-- **C45, deadlocks.**  Whatever requests arrive, in whatever order their parts run: as long as something is not answered,
something can go on, and without new requests everything is answered after finitely many steps. -/
theorem C45_live (h : Host) (disk : Text → Option Text) (broken : Backend → Backend) : Live (Handler h disk broken fun _ => True) :=
  live_of_disciplined handlers_disciplined


/-! ## Isolation -/

/-- **C45, isolation.**  While a handler or task holds the state, nobody else changes it: whatever goes on in between, as
long as the owner does not go on itself, the state stays as it is. -/
theorem C45_isolated (h : Host) (disk : Text → Option Text) (broken : Backend → Backend) (d : Shared) {c c' : Cfg Shared Reply}
    (hr : Reach (Handler h disk broken fun _ => True) (start d) c) (hs : Step c c') {t : Thread Shared Reply} (ht : t ∈ c.threads)
    (ho : c.owner .state = some t.id) (ht' : t ∈ c'.threads) : c'.data.st = c.data.st := by
  have hi := inv_reach handlers_disciplined hr (inv_start d)
  have hi' := inv_step hi hs
  cases hs with
  | lock _ => rfl
  | unlock _ => rfl
  | wait _ => rfl
  | fork => rfl
  | run =>
    rename_i d o l1 l2 n i p f k
    simp only at ho ht ht'
    obtain ⟨held, _, h1, h2⟩ := hi.disc ⟨i, p, .run f k⟩ (mem_mid.2 (.inl rfl))
    by_cases hm : t.id = i
    · rcases mem_mid.1 ht' with e | e
      · rcases mem_mid.1 ht with e' | e'
        · rw [e] at e'
          have hq : k d = .run f k := congrArg Thread.prog e'
          have hsub : Sub (k d) (.run f k) := .run d
          rw [hq] at hsub
          exact absurd hsub (sub_wf.irrefl.irrefl _)
        · exact absurd hm (other_id hi.ids e')
      · exact absurd hm (other_id hi.ids e)
    · rcases h1.1 with hmem | hmem
      · have := (h2 _).1 hmem
        simp only at this
        rw [ho] at this
        exact absurd (Option.some.inj this) hm
      · exact hmem d

/-! ## Invariants -/

/-- **C45, invariants.**  What holds of the state at the beginning and is kept by every request that runs alone, and by every
task that looks through one file, holds at any time, whatever handlers run at the same time. -/
theorem C45_invariant (h : Host) (disk : Text → Option Text) (broken : Backend → Backend) (R : Request → Prop) (I : Backend → Prop)
    (hb : ∀ st, I st → I (broken st))
    (hr : ∀ r, R r → ∀ st st' a, I st → r.effect h st = .ok (st', a) → I st')
    (hf : ∀ path content ast range errors st refs st', disk path = some content →
      Backend.sourceToAst h content = .ok (some (ast, range, errors)) → I st →
      Backend.resolveFile h path ast st = .ok (refs, st') → I st')
    (d : Shared) (hd : I d.st) {c : Cfg Shared Reply} (hc : Reach (Handler h disk broken R) (start d) c) : I c.data.st := by
  have hdisc : Disciplined (fun _ f => ∀ s : Shared, I s.st → I (f s).st) (Handler h disk broken R) := by
    refine handlers_disc ⟨fun _ _ h => h, fun _ _ h => h, fun r f content ast range errors h1 h2 s hs => ?_, fun r h1 s hs => ?_⟩
    · unfold searched
      split
      · next h3 => exact hf _ _ _ _ _ _ _ _ h1 h2 hs h3
      · next h3 => exact hf _ _ _ _ _ _ _ _ h1 h2 hs h3
      · exact hb _ hs
    · unfold applied
      split
      · next h3 => exact hr r h1 _ _ _ hs h3
      · exact hb _ hs
  have key : Inv (fun _ f => ∀ s : Shared, I s.st → I (f s).st) c ∧ I c.data.st := by
    induction hc with
    | refl => exact ⟨inv_start d, hd⟩
    | step _ hs ih =>
      refine ⟨inv_step ih.1 hs, ?_⟩
      cases hs with
      | run =>
        obtain ⟨held, _, h1, _⟩ := ih.1.disc _ (mem_mid.2 (.inl rfl))
        exact h1.1 _ ih.2
      | lock _ => exact ih.2
      | unlock _ => exact ih.2
      | wait _ => exact ih.2
      | fork => exact ih.2
    | arrive _ hp ih => exact ⟨inv_arrive ih.1 (hdisc _ hp), ih.2⟩
  exact key.2

/-- No text of the request has a comment that names a variable. -/
def Request.Plain (h : Host) : Request → Prop
  | .didOpen _ disk => ∀ s, disk = some s → Backend.Plain h s
  | .didChange _ changes => ∀ s ∈ changes, Backend.Plain h s
  | _ => True

/-- One request keeps the tables in order. -/
theorem clean_effect {r : Request} (hp : r.Plain h) {st st' : Backend} {a : Reply} (hc : Backend.Clean h.U st)
    (e : r.effect h st = .ok (st', a)) : Backend.Clean h.U st' := by
  have same : ∀ {β : Type} {x : Out β} {g : β → Reply}, (do let l ← x; pure (st, g l)) = Out.ok (st', a) → Backend.Clean h.U st' := by
    intro β x g e
    cases x <;> cases e
    exact hc
  have upd : ∀ {x : Out Backend}, (∀ st', x = .ok st' → Backend.Clean h.U st') →
      (do let l ← x; pure (l, Reply.none)) = Out.ok (st', a) → Backend.Clean h.U st' := by
    intro x hx e
    cases x with
    | ok v => cases e; exact hx _ rfl
    | panic => cases e
    | deep => cases e
  cases r with
  | symbol q => exact same e
  | documentSymbol f => exact same e
  | documentHighlight p f => cases e; exact hc
  | gotoImplementation p f => exact same e
  | gotoDefinition p f => exact same e
  | hover p f => exact same e
  | completion t p f => exact same e
  | didChangeWatchedFiles l => exact upd (hc.watched l) e
  | didChange f l => exact upd (hc.didChange f l hp) e
  | didClose f => cases e; exact hc.didClose f
  | didOpen f dd => exact upd (hc.didOpen f dd hp) e
  | initialized => cases e; exact hc.initialized

/-- **C45 and C35, at any time.**  Whatever handlers run at the same time, also in the middle of them: every entry of the
global table is a live top level symbol of a known file, with the key as its lower-case name.  Missing: texts with comments
that name a variable; and the state that a panic leaves behind must be in order. -/
theorem C45_table_partial (h : Host) (disk : Text → Option Text) (broken : Backend → Backend)
    (hb : ∀ st, Backend.Clean h.U st → Backend.Clean h.U (broken st)) (hd : ∀ p s, disk p = some s → Backend.Plain h s)
    (d : Shared) (hs : Backend.Serving h d.st) {c : Cfg Shared Reply}
    (hc : Reach (Handler h disk broken (Request.Plain h)) (start d) c) (k : Text) (n : NodeId)
    (hn : Dict.get? c.data.st.globals k = some n) :
    c.data.st.arena.Live n ∧ ∃ v f path, c.data.st.arena.get? n = some v ∧ h.U.lower v.fqdn = k ∧
      c.data.st.arena.parent? n = some (some f) ∧ Dict.get? c.data.st.files path = some f := by
  have hi : Backend.Clean h.U c.data.st := by
    refine C45_invariant h disk broken (Request.Plain h) (Backend.Clean h.U) hb (fun r hr st st' a h1 h2 => clean_effect hr h1 h2)
      ?_ d hs.clean hc
    intro path content ast range errors st refs st' h1 h2 h3 h4
    have hq := h3.toSafe.resolveFile path ast (hd path content h1 ast range errors h2) _ h4
    exact ⟨hq.1, fun x hx => h3.plain x (hq.2.1 ▸ hx), fun p m hm => h3.tidy p m (hq.2.2.1 ▸ hm)⟩
  obtain ⟨v, f, path, h1, h2, h3, h4⟩ := hi.globals k n hn
  exact ⟨h1.live, v, f, path, h1.get? hi.arena, h4, h1.parent? hi.arena, h2⟩

/-! ## One after the other -/

/-- Request number `i` locks the state once and then does `body i`. -/
def Only (body : Nat → Body σ α) (p : Nat → Prog σ α) : Prop := p = fun i => single (body i) i

/-- What is kept. -/
private structure Kept (d : σ) (body : Nat → Body σ α) (c : Cfg σ α) (order : List Nat) : Prop where
  serial : Serial d body c order
  inv : Inv (fun _ _ => True) c
  known : ∀ i ∈ order, i < c.next

private theorem kept_start (d : σ) (body : Nat → Body σ α) : Kept d body (start d) [] :=
  ⟨⟨List.nodup_nil, fun _ => rfl, (fun _ h => nomatch h), (fun _ h => nomatch h)⟩, inv_start d, (fun _ h => nomatch h)⟩

private theorem kept_arrive {d : σ} {body : Nat → Body σ α} {c : Cfg σ α} {o : List Nat} (hk : Kept d body c o) :
    Kept d body (arrive (fun i => single (body i) i) c) o := by
  refine ⟨⟨hk.serial.once, hk.serial.idle, fun i e => ?_, fun t ht => ?_⟩,
    inv_arrive hk.inv fun n => single_disc (body n) (fun _ => trivial) n, fun i hi => Nat.lt_succ_of_lt (hk.known i hi)⟩
  · obtain ⟨o', b', e1, ⟨t, ht, e2, e3⟩, e4⟩ := hk.serial.busy i e
    exact ⟨o', b', e1, ⟨t, List.mem_append_left _ ht, e2, e3⟩, e4⟩
  · rcases List.mem_append.1 ht with ht | ht
    · exact hk.serial.answers t ht
    · cases List.mem_singleton.1 ht
      exact .inl ⟨rfl, fun hm => Nat.lt_irrefl _ (hk.known _ hm)⟩

private theorem unique_id {l : List (Thread σ α)} (h : l.Pairwise fun a b => a.id ≠ b.id) {a b : Thread σ α} (ha : a ∈ l)
    (hb : b ∈ l) (e : a.id = b.id) : a = b := by
  obtain ⟨l1, l2, rfl⟩ := List.append_of_mem hb
  rcases mem_mid.1 ha with h1 | h1
  · exact h1
  · exact absurd e (other_id h h1)

private theorem after_append (body : Nat → Body σ α) (d : σ) (o : List Nat) (i : Nat) :
    after body d (o ++ [i]) = ((body i).eval (after body d o)).1 := by
  simp [after, List.foldl_append]

private theorem prog_run {b : Body σ α} {f : σ → σ} {k : σ → Prog σ α} (e : b.prog = .run f k) :
    ∃ k' : σ → Body σ α, b = .run f k' ∧ ∀ s, (k' s).prog = k s := by
  cases b with
  | ret a => cases e
  | run g k' => cases e; exact ⟨k', rfl, fun _ => rfl⟩

private theorem kept_step {d : σ} {body : Nat → Body σ α} {c c' : Cfg σ α} {o : List Nat} (hk : Kept d body c o) (hs : Step c c') :
    ∃ o', o <+: o' ∧ Kept d body c' o' := by
  have hi' := inv_step hk.inv hs
  obtain ⟨hser, hi, hkn⟩ := hk
  cases hs with
  | lock hl =>
    rename_i dd oo l1 l2 n i p l k
    have hself := hser.answers ⟨i, p, .lock l k⟩ (mem_mid.2 (.inl rfl))
    simp only at hself
    have hfresh := hi.fresh ⟨i, p, .lock l k⟩ (mem_mid.2 (.inl rfl))
    rcases hself with ⟨e, hno⟩ | e | ⟨o1, o2, _, e⟩
    · cases e
      refine ⟨o ++ [i], List.prefix_append _ _, ⟨⟨?_, ?_, ?_, ?_⟩, hi', ?_⟩⟩
      · exact List.nodup_append.2 ⟨hser.once, List.nodup_singleton _, fun a ha b hb => by
          cases List.mem_singleton.1 hb; intro e; exact hno (e ▸ ha)⟩
      · intro e; simp [setOwner] at e
      · intro j e
        simp only [setOwner, if_pos] at e
        cases e
        refine ⟨o, body i, rfl, ⟨⟨i, p, (body i).prog⟩, mem_mid.2 (.inl rfl), rfl, rfl⟩, ?_⟩
        simp only
        rw [← hser.idle hl]
      · intro t ht
        rcases mem_mid.1 ht with rfl | ht
        · exact .inr (.inl (by simp [setOwner]))
        · have hne := other_id hi.ids ht
          rcases hser.answers t (mem_mid.2 (.inr ht)) with ⟨e1, e2⟩ | e | ⟨o1, o2, e1, e2⟩
          · refine .inl ⟨e1, fun hm => ?_⟩
            rcases List.mem_append.1 hm with hm | hm
            · exact e2 hm
            · exact hne (List.mem_singleton.1 hm)
          · simp only at e; rw [hl] at e; cases e
          · exact .inr (.inr ⟨o1, o2 ++ [i], by rw [e1]; simp, e2⟩)
      · intro j hj
        rcases List.mem_append.1 hj with hj | hj
        · exact hkn j hj
        · cases List.mem_singleton.1 hj; exact hfresh
    · obtain ⟨o', b, _, ⟨t, ht, e2, e3⟩, _⟩ := hser.busy i e
      have := unique_id hi.ids ht (mem_mid.2 (.inl rfl)) e2
      rw [this] at e3
      cases b <;> cases e3
    · cases e
  | unlock hl =>
    rename_i dd oo l1 l2 n i p l k
    have hself := hser.answers ⟨i, p, .unlock l k⟩ (mem_mid.2 (.inl rfl))
    simp only at hself
    rcases hself with ⟨e, _⟩ | e | ⟨o1, o2, _, e⟩
    · cases e
    · obtain ⟨o', b, e1, ⟨t, ht, e2, e3⟩, e4⟩ := hser.busy i e
      have := unique_id hi.ids ht (mem_mid.2 (.inl rfl)) e2
      rw [this] at e3
      cases b with
      | run => cases e3
      | ret a =>
        cases e3
        refine ⟨o, List.prefix_rfl, ⟨⟨hser.once, ?_, ?_, ?_⟩, hi', hkn⟩⟩
        · intro _
          rw [e1, after_append, ← e4]
          rfl
        · intro j ej
          simp [setOwner] at ej
        · intro u hu
          rcases mem_mid.1 hu with rfl | hu
          · refine .inr (.inr ⟨o', [], e1, ?_⟩)
            simp only
            rw [← e4]
            rfl
          · have hne := other_id hi.ids hu
            rcases hser.answers u (mem_mid.2 (.inr hu)) with h1 | h1 | h1
            · exact .inl h1
            · simp only at h1; rw [e] at h1; exact absurd (Option.some.inj h1).symm hne
            · exact .inr (.inr h1)
    · cases e
  | run =>
    rename_i dd oo l1 l2 n i p f k
    have hself := hser.answers ⟨i, p, .run f k⟩ (mem_mid.2 (.inl rfl))
    simp only at hself
    rcases hself with ⟨e, _⟩ | e | ⟨o1, o2, _, e⟩
    · cases e
    · obtain ⟨o', b, e1, ⟨t, ht, e2, e3⟩, e4⟩ := hser.busy i e
      have := unique_id hi.ids ht (mem_mid.2 (.inl rfl)) e2
      rw [this] at e3
      obtain ⟨k', rfl, hk'⟩ := prog_run e3.symm
      refine ⟨o, List.prefix_rfl, ⟨⟨hser.once, ?_, ?_, ?_⟩, hi', hkn⟩⟩
      · intro e'; simp only at e'; rw [e] at e'; cases e'
      · intro j ej
        simp only at ej
        rw [e] at ej
        cases ej
        exact ⟨o', k' dd, e1, ⟨_, mem_mid.2 (.inl rfl), rfl, (hk' dd).symm⟩, e4⟩
      · intro u hu
        rcases mem_mid.1 hu with rfl | hu
        · exact .inr (.inl e)
        · exact hser.answers u (mem_mid.2 (.inr hu))
    · cases e
  | wait hw =>
    rename_i dd oo l1 l2 n i p k
    have hself := hser.answers ⟨i, p, .wait k⟩ (mem_mid.2 (.inl rfl))
    simp only at hself
    rcases hself with ⟨e, _⟩ | e | ⟨o1, o2, _, e⟩
    · cases e
    · obtain ⟨o', b, e1, ⟨t, ht, e2, e3⟩, e4⟩ := hser.busy i e
      have := unique_id hi.ids ht (mem_mid.2 (.inl rfl)) e2
      rw [this] at e3
      cases b <;> cases e3
    · cases e
  | fork =>
    rename_i dd oo l1 l2 n i m p ts k
    have hself := hser.answers ⟨i, p, .fork m ts k⟩ (mem_mid.2 (.inl rfl))
    simp only at hself
    rcases hself with ⟨e, _⟩ | e | ⟨o1, o2, _, e⟩
    · cases e
    · obtain ⟨o', b, e1, ⟨t, ht, e2, e3⟩, e4⟩ := hser.busy i e
      have := unique_id hi.ids ht (mem_mid.2 (.inl rfl)) e2
      rw [this] at e3
      cases b <;> cases e3
    · cases e

private theorem kept_reach {d : σ} {body : Nat → Body σ α} {c c' : Cfg σ α} {o : List Nat} (hk : Kept d body c o)
    (hr : Reach (Only body) c c') : ∃ o', o <+: o' ∧ Kept d body c' o' := by
  induction hr with
  | refl => exact ⟨o, List.prefix_rfl, hk⟩
  | step _ hs ih =>
    obtain ⟨o', h2, h3⟩ := ih
    obtain ⟨o'', h4, h5⟩ := kept_step h3 hs
    exact ⟨o'', h2.trans h4, h5⟩
  | arrive _ hp ih =>
    obtain ⟨o', h2, h3⟩ := ih
    subst hp
    exact ⟨o', h2, kept_arrive h3⟩

/-- **C45, one after the other.**  Handlers that lock the state once: at any time, whatever has been answered so far is what
is answered if the requests are served one after the other in some order, each from the state that the one before has left.
Later on this order only grows: who has been answered is before everybody who asks later. -/
theorem C45_serial (body : Nat → Body σ α) (d : σ) {c c' : Cfg σ α} (h1 : Reach (Only body) (start d) c)
    (h2 : Reach (Only body) c c') : ∃ o o', o <+: o' ∧ Serial d body c o ∧ Serial d body c' o' := by
  obtain ⟨o, _, hk⟩ := kept_reach (kept_start d body) h1
  obtain ⟨o', hp, hk'⟩ := kept_reach hk h2
  exact ⟨o, o', hp, hk.serial, hk'.serial⟩

/-- **C45, in the end.**  When everything is answered, the state is the one that the requests lead to in some order, and each
has got the answer for its place in this order. -/
theorem C45_serial_end (body : Nat → Body σ α) (d : σ) {c : Cfg σ α} (h1 : Reach (Only body) (start d) c) (h2 : c.AllDone) :
    ∃ o : List Nat, o.Nodup ∧ c.data = after body d o ∧
      ∀ t ∈ c.threads, ∃ o1 o2, o = o1 ++ t.id :: o2 ∧ t.prog = .done ((body t.id).eval (after body d o1)).2 := by
  obtain ⟨o, _, hk⟩ := kept_reach (kept_start d body) h1
  have hfree : c.owner .state = none := by
    cases ho : c.owner .state with
    | none => rfl
    | some i =>
      obtain ⟨_, b, _, ⟨t, ht, _, e⟩, _⟩ := hk.serial.busy i ho
      have := h2 t ht
      rw [e] at this
      cases b <;> cases this
  refine ⟨o, hk.serial.once, hk.serial.idle hfree, fun t ht => ?_⟩
  rcases hk.serial.answers t ht with ⟨e, _⟩ | e | e
  · have := h2 t ht
    rw [e] at this
    cases this
  · rw [hfree] at e; cases e
  · exact e

/-! ## The requests -/

/-- What a request does when it is alone: what `Request.effect` says, whatever it waits for in between. -/
def Request.alone (h : Host) (broken : Backend → Backend) (r : Request) (s : Shared) : Shared × Reply :=
  match r.effect h s.st with
  | .ok (st, a) => (⟨st, s.results⟩, a)
  | _ => (⟨broken s.st, s.results⟩, .crash)

theorem eval_pauses (b : Body σ α) (n : Nat) (s : σ) : (pauses b n).eval s = b.eval s := by
  induction n with
  | zero => rfl
  | succ n ih => exact ih

theorem eval_section (f : Backend → Out (Backend × Reply)) (n : Nat) (s : Shared) :
    (section' f broken n).eval s = match f s.st with
      | .ok (st, a) => (⟨st, s.results⟩, a)
      | _ => (⟨broken s.st, s.results⟩, .crash) := by
  unfold section'
  simp only [Body.eval, applied]
  split <;> simp [*, eval_pauses, Body.eval]

theorem eval_body (r : Request) (s : Shared) : (r.body h broken).eval s = r.alone h broken s := by
  cases r <;> simp [Request.body, Request.alone, eval_section, Body.eval, eval_pauses]

/-- **C45, requests.**  Any number of requests and notifications other than `references` and `rename`, in any order and
interleaving: when all are answered, the state and the answers are those of some order in which they do not overlap. -/
theorem C45_requests (h : Host) (broken : Backend → Backend) (requests : Nat → Request) (d : Shared) {c : Cfg Shared Reply}
    (h1 : Reach (Only fun i => (requests i).body h broken) (start d) c) (h2 : c.AllDone) :
    ∃ o : List Nat, o.Nodup ∧ c.data = o.foldl (fun s i => ((requests i).alone h broken s).1) d ∧
      ∀ t ∈ c.threads, ∃ o1 o2, o = o1 ++ t.id :: o2 ∧
        t.prog = .done ((requests t.id).alone h broken (o1.foldl (fun s i => ((requests i).alone h broken s).1) d)).2 := by
  have e : ∀ o, after (fun i => (requests i).body h broken) d o = o.foldl (fun s i => ((requests i).alone h broken s).1) d :=
    fun o => by simp only [after, eval_body]
  obtain ⟨o, h3, h4, h5⟩ := C45_serial_end _ d h1 h2
  refine ⟨o, h3, by rw [h4, e], fun t ht => ?_⟩
  obtain ⟨o1, o2, h6, h7⟩ := h5 t ht
  exact ⟨o1, o2, h6, by rw [h7, e, eval_body]⟩

/-! ## Concrete schedules -/

/-- Thread number `j` goes on, if it can. -/
def move (c : Cfg σ α) (j : Nat) : Option (Cfg σ α) :=
  match c.threads[j]? with
  | none => none
  | some t =>
    let before := c.threads.take j
    let behind := c.threads.drop (j + 1)
    match t.prog with
    | .done _ => none
    | .lock l k =>
      if c.owner l = none then some ⟨c.data, setOwner c.owner l (some t.id), before ++ ⟨t.id, t.parent, k⟩ :: behind, c.next⟩
      else none
    | .unlock l k =>
      if c.owner l = some t.id then some ⟨c.data, setOwner c.owner l none, before ++ ⟨t.id, t.parent, k⟩ :: behind, c.next⟩
      else none
    | .run f k => some ⟨f c.data, c.owner, before ++ ⟨t.id, t.parent, k c.data⟩ :: behind, c.next⟩
    | .fork m ts k =>
      some ⟨c.data, c.owner, (before ++ ⟨t.id, t.parent, .wait k⟩ :: behind) ++ tasks t.id c.next m ts, c.next + m⟩
    | .wait k =>
      if (before ++ behind).all fun u => !(decide (u.parent = some t.id)) || u.prog.isDone then
        some ⟨c.data, c.owner, before ++ ⟨t.id, t.parent, k⟩ :: behind, c.next⟩
      else none

theorem move_step {c c' : Cfg σ α} {j : Nat} (h : move c j = some c') : Step c c' := by
  obtain ⟨d, o, ths, n⟩ := c
  unfold move at h
  simp only at h
  cases ht : ths[j]? with
  | none => rw [ht] at h; cases h
  | some t =>
    rw [ht] at h
    obtain ⟨hj, hget⟩ := List.getElem?_eq_some_iff.1 ht
    have hsplit : ths = ths.take j ++ t :: ths.drop (j + 1) := by
      rw [← hget, ← List.drop_eq_getElem_cons hj, List.take_append_drop]
    obtain ⟨i, p, q⟩ := t
    simp only at h
    generalize ths.take j = l1 at h hsplit
    generalize ths.drop (j + 1) = l2 at h hsplit
    subst hsplit
    cases q with
    | done a => cases h
    | lock l k =>
      simp only at h
      split at h
      · next e => cases h; exact .lock e
      · cases h
    | unlock l k =>
      simp only at h
      split at h
      · next e => cases h; exact .unlock e
      · cases h
    | run f k => cases h; exact .run
    | fork m ts k => cases h; exact .fork
    | wait k =>
      simp only at h
      split at h
      · next e =>
        cases h
        refine .wait fun t ht hp => ?_
        have := List.all_eq_true.1 e t ht
        simpa [hp] using this
      · cases h

/-- What happens next: a request arrives, or a thread goes on. -/
inductive Ev (σ α : Type) where
  | arrive (p : Nat → Prog σ α)
  | go (j : Nat)

/-- A schedule. -/
def exec : List (Ev σ α) → Cfg σ α → Option (Cfg σ α)
  | [], c => some c
  | .arrive p :: l, c => exec l (arrive p c)
  | .go j :: l, c => (move c j).bind (exec l)

/-- The requests that arrive. -/
def arrivals : List (Ev σ α) → List (Nat → Prog σ α)
  | [] => []
  | .arrive p :: l => p :: arrivals l
  | .go _ :: l => arrivals l

theorem exec_reach {H : (Nat → Prog σ α) → Prop} {c0 : Cfg σ α} : ∀ (l : List (Ev σ α)) {c c' : Cfg σ α}, Reach H c0 c →
    (∀ p ∈ arrivals l, H p) → exec l c = some c' → Reach H c0 c'
  | [], c, c', hr, _, e => by cases e; exact hr
  | .arrive p :: l, c, c', hr, hp, e => exec_reach l (hr.arrive (hp p List.mem_cons_self))
      (fun q hq => hp q (List.mem_cons_of_mem _ hq)) e
  | .go j :: l, c, c', hr, hp, e => by
    obtain ⟨c1, h1, h2⟩ := Option.bind_eq_some_iff.1 e
    exact exec_reach l (hr.step (move_step h1)) hp h2

/-! ## Rename is not atomic -/

/-- A workspace with one file, which is open. -/
def sampleShared : Shared :=
  ⟨match startAndOpen [(c!"a.php", c!"<?php function f() {} f();")] c!"a.php" with | .ok st => st | _ => .empty, fun _ => []⟩

/-- The file on the disk. -/
def sampleDisk : Text → Option Text := fun p => if p = c!"a.php" then some c!"<?php function f() {} f();" else none

/-- `f` is to be renamed. -/
def sampleRename : Nat → Prog Shared Reply := rename plainHost sampleDisk id ⟨0, 22⟩ c!"a.php"

/-- The user removes the text. -/
def sampleChange : Nat → Prog Shared Reply := single ((Request.didChange c!"a.php" [c!"<?php "]).body plainHost id)

/-- How a thread ended: 0 it has not, 1 with a panic, 2 with edits, 3 without edits, 4 otherwise. -/
def ending : Prog Shared Reply → Nat
  | .done .crash => 1
  | .done (.edits (some _)) => 2
  | .done (.edits none) => 3
  | .done _ => 4
  | _ => 0

/-- How the threads ended. -/
def endings (l : List (Ev Shared Reply)) : Option (List Nat) :=
  (exec l (start sampleShared)).map fun c => c.threads.map fun t => ending t.prog

/-- The change comes between the two times `rename` locks the state. -/
def betweenSchedule : List (Ev Shared Reply) :=
  [.arrive sampleRename, .go 0, .go 0, .go 0, .arrive sampleChange, .go 1, .go 1, .go 1, .go 1, .go 0, .go 0, .go 0]

/-- `rename` comes first. -/
def renameFirst : List (Ev Shared Reply) :=
  [.arrive sampleRename, .go 0, .go 0, .go 0, .go 0, .go 0, .go 0, .go 0, .go 0, .go 0, .go 0, .go 0, .go 1, .go 1, .go 1, .go 1, .go 1,
    .go 0, .go 0, .go 0, .go 0, .arrive sampleChange, .go 2, .go 2, .go 2, .go 2]

/-- The change comes first. -/
def changeFirst : List (Ev Shared Reply) :=
  [.arrive sampleChange, .go 0, .go 0, .go 0, .go 0, .arrive sampleRename, .go 1, .go 1, .go 1]

private theorem exec_sample {l : List (Ev Shared Reply)}
    (hl : ∀ p ∈ arrivals l, Handler plainHost sampleDisk id (fun _ => True) p) {e : List Nat} (he : endings l = some e) :
    ∃ c, Reach (Handler plainHost sampleDisk id fun _ => True) (start sampleShared) c ∧ c.threads.map (fun t => ending t.prog) = e := by
  unfold endings at he
  obtain ⟨c, h1, h2⟩ := Option.map_eq_some_iff.1 he
  exact ⟨c, exec_reach l .refl hl h1, h2⟩

private theorem sample_handlers (p : Nat → Prog Shared Reply) (hp : p = sampleRename ∨ p = sampleChange) :
    Handler plainHost sampleDisk id (fun _ => True) p := by
  rcases hp with rfl | rfl
  · exact .rename ..
  · exact .single _ trivial

private theorem between_ends : endings betweenSchedule = some [1, 4] := by decide +kernel

private theorem renameFirst_ends : endings renameFirst = some [2, 4, 4] := by decide +kernel

private theorem changeFirst_ends : endings changeFirst = some [4, 3] := by decide +kernel

/-- **C45 does not hold for `rename`.**  It locks the state three times, and a change may come in between: here the text
with the symbol is removed after `rename` has found the symbol under the cursor, so that `rename` panics.  If `rename` comes
first it gets its edits, if the change comes first it answers that there is nothing to rename: what happens is not what
happens in any order. -/
theorem C45_violated_rename :
    (∃ c, Reach (Handler plainHost sampleDisk id fun _ => True) (start sampleShared) c ∧
      c.threads.map (fun t => ending t.prog) = [1, 4]) ∧
    (∃ c, Reach (Handler plainHost sampleDisk id fun _ => True) (start sampleShared) c ∧
      c.threads.map (fun t => ending t.prog) = [2, 4, 4]) ∧
    ∃ c, Reach (Handler plainHost sampleDisk id fun _ => True) (start sampleShared) c ∧
      c.threads.map (fun t => ending t.prog) = [4, 3] := by
  refine ⟨exec_sample (fun p hp => sample_handlers p ?_) between_ends, exec_sample (fun p hp => sample_handlers p ?_) renameFirst_ends,
    exec_sample (fun p hp => sample_handlers p ?_) changeFirst_ends⟩
  · simp only [betweenSchedule, arrivals, List.mem_cons, List.not_mem_nil, or_false] at hp
    exact hp
  · simp only [renameFirst, arrivals, List.mem_cons, List.not_mem_nil, or_false] at hp
    exact hp
  · simp only [changeFirst, arrivals, List.mem_cons, List.not_mem_nil, or_false] at hp
    exact hp.symm

/-- A change, then the file is closed. -/
def sampleRequests (i : Nat) : Request := if i = 0 then .didChange c!"a.php" [c!"<?php "] else .didClose c!"a.php"

/-- Their handlers. -/
def sampleHandler : Nat → Prog Shared Reply := fun i => single ((sampleRequests i).body plainHost id) i

/-- The second one arrives while the first one waits for the client. -/
def overlapSchedule : List (Ev Shared Reply) :=
  [.arrive sampleHandler, .go 0, .go 0, .arrive sampleHandler, .go 0, .go 0, .go 1, .go 1, .go 1]

private theorem overlap_ends :
    ((exec overlapSchedule (start sampleShared)).map fun c => (c.threads.all (·.prog.isDone), c.threads.length)) = some (true, 2) := by
  decide +kernel

/-- Two notifications that overlap, as `C45_requests` has it. -/
example : ∃ c, Reach (Only fun i => (sampleRequests i).body plainHost id) (start sampleShared) c ∧ c.AllDone ∧
    c.threads.length = 2 := by
  obtain ⟨c, h1, h2⟩ := Option.map_eq_some_iff.1 overlap_ends
  refine ⟨c, exec_reach overlapSchedule .refl (fun q hq => ?_) h1, fun t ht => List.all_eq_true.1 (congrArg Prod.fst h2) t ht,
    congrArg Prod.snd h2⟩
  simp only [overlapSchedule, arrivals, List.mem_cons, List.not_mem_nil, or_false, or_self] at hq
  exact hq

/-! ## Indexing -/

namespace Indexing

/-- What happens in any order. -/
inductive Run (cap : Nat) (s : Indexing) : Indexing → Prop where
  | refl : Run cap s s
  | step {s1 s2 : Indexing} : Run cap s s1 → Step cap s1 s2 → Run cap s s2

/-- What is left to be done: each file is sent and received. -/
private def left (s : Indexing) : Nat := 2 * (s.toSend.map List.length).sum + s.queue.length

private theorem left_step {cap : Nat} {s s' : Indexing} (h : Step cap s s') : s'.left < s.left := by
  cases h with
  | send _ => simp [left]; omega
  | recv => simp [left]

/-- All files, wherever they are. -/
private def all (s : Indexing) : List (Text × Text) := s.indexed ++ s.queue ++ s.toSend.flatten

private theorem all_step {cap : Nat} {s s' : Indexing} (h : Step cap s s') : s'.all.Perm s.all := by
  cases h with
  | send _ =>
    rename_i l1 l2 f r q d
    simp only [all, List.flatten_append, List.flatten_cons, List.append_assoc, List.cons_append]
    refine List.Perm.append_left _ (List.Perm.append_left _ ?_)
    simp only [List.nil_append]
    exact List.perm_middle.symm
  | recv => simp [all]

/-- The files of one thread, in the order in which they are sent. -/
private theorem sublist_step {cap : Nat} {s s' : Indexing} (h : Step cap s s') (l : List (Text × Text))
    (hl : ∃ a r, l = a ++ r ∧ a.Sublist (s.indexed ++ s.queue) ∧ r ∈ s.toSend) :
    ∃ a r, l = a ++ r ∧ a.Sublist (s'.indexed ++ s'.queue) ∧ r ∈ s'.toSend := by
  obtain ⟨a, r, rfl, ha, hr⟩ := hl
  cases h with
  | @send l1 l2 f r' q d _ =>
    simp only at ha hr ⊢
    rcases mem_mid.1 hr with rfl | hr
    · refine ⟨a ++ [f], r', by simp, ?_, mem_mid.2 (.inl rfl)⟩
      rw [← List.append_assoc]
      exact ha.append (List.Sublist.refl _)
    · refine ⟨a, r, rfl, ?_, mem_mid.2 (.inr hr)⟩
      rw [← List.append_assoc]
      exact ha.trans (List.sublist_append_left _ _)
  | recv =>
    simp only at ha hr ⊢
    exact ⟨a, r, rfl, by simpa using ha, hr⟩

/-- **C45, indexing.**  The threads that parse the files and the task that indexes them, which share a channel with room for
at least one file: as long as they are not finished one of them can go on, after finitely many steps they are finished, and
then every file has been indexed exactly once, the files of each thread in the order in which it has parsed them. -/
theorem C45_indexing (cap : Nat) (hcap : 0 < cap) (threads : List (List (Text × Text))) :
    (∀ s, Run cap ⟨threads, [], []⟩ s → ¬ s.Finished → ∃ s', Step cap s s') ∧
    (WellFounded fun s' s : Indexing => Step cap s s') ∧
    ∀ s, Run cap ⟨threads, [], []⟩ s → s.Finished →
      s.indexed.Perm threads.flatten ∧ ∀ l ∈ threads, l.Sublist s.indexed := by
  refine ⟨fun s _ hn => ?_, ?_, fun s hs hf => ⟨?_, fun l hl => ?_⟩⟩
  · obtain ⟨w, q, d⟩ := s
    cases q with
    | cons f q => exact ⟨_, .recv⟩
    | nil =>
      have : ∃ l ∈ w, l ≠ [] := by
        apply Classical.byContradiction
        intro hx
        refine hn ⟨fun l hl => ?_, rfl⟩
        apply Classical.byContradiction
        intro hne
        exact hx ⟨l, hl, hne⟩
      obtain ⟨l, hl, hne⟩ := this
      obtain ⟨l1, l2, rfl⟩ := List.append_of_mem hl
      cases l with
      | nil => exact absurd rfl hne
      | cons f r => exact ⟨_, .send hcap⟩
  · exact Subrelation.wf (r := InvImage (· < ·) left) (fun h => left_step h) (InvImage.wf _ Nat.lt_wfRel.wf)
  · have hp : s.all.Perm (Indexing.all ⟨threads, [], []⟩) := by
      clear hf
      induction hs with
      | refl => exact .refl _
      | step _ h ih => exact (all_step h).trans ih
    have e : s.toSend.flatten = [] := List.flatten_eq_nil_iff.2 hf.1
    simp only [all, e, hf.2, List.append_nil, List.nil_append] at hp
    exact hp
  · have hk : ∃ a r, l = a ++ r ∧ a.Sublist (s.indexed ++ s.queue) ∧ r ∈ s.toSend := by
      clear hf
      induction hs with
      | refl => exact ⟨[], l, rfl, List.nil_sublist _, hl⟩
      | step _ h ih => exact sublist_step h l ih
    obtain ⟨a, r, rfl, ha, hr⟩ := hk
    rw [hf.1 r hr, hf.2] at *
    simpa using ha

/-- Two threads and a channel with room for one file, to the end. -/
example : ∃ s, Run 1 ⟨[[(c!"a", c!""), (c!"b", c!"")], [(c!"c", c!"")]], [], []⟩ s ∧ s.Finished ∧
    s.indexed.map (·.1) = [c!"a", c!"c", c!"b"] :=
  ⟨_, ((((((Run.refl.step (.send (l1 := []) Nat.zero_lt_one)).step .recv).step
      (.send (l1 := [[(c!"b", c!"")]]) Nat.zero_lt_one)).step .recv).step (.send (l1 := []) Nat.zero_lt_one)).step .recv),
    ⟨by simp, rfl⟩, rfl⟩

end Indexing

end PhpLs.Concurrency
