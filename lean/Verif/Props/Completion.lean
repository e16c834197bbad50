import Verif.Suggester
import Verif.Props.Range
import Verif.Props.Traverser
import Verif.Runs

/-!
# C46: completion finds the node at the cursor
-/

namespace PhpLs.Suggester

open Out

/-- The node has a range and the position is between its start and its end, both included. -/
def Around (p : Pos) (n : Node) : Prop :=
  ∃ r, n.range = some r ∧ Pos.Le (getRange r).start p ∧ Pos.Le p (getRange r).end

/-- The node has a range and the position is not in it. -/
def Apart (p : Pos) (n : Node) : Prop :=
  ∃ r, n.range = some r ∧ ¬ (Pos.Le (getRange r).start p ∧ Pos.Le p (getRange r).end)

/-- No position is both in and out of a node. -/
theorem Apart.not {p : Pos} {n : Node} (h : Apart p n) : ¬ Around p n := by
  rintro ⟨r, h1, h2⟩
  obtain ⟨r', h1', h2'⟩ := h
  rw [h1] at h1'
  injection h1' with h1'
  exact h2' (h1' ▸ h2)

/-- The way down from the first node to the last one: each step goes to the first child that contains the position.  The list is
the way, with both ends. -/
inductive Way (p : Pos) : Node → List Node → Node → Prop where
  | here (n : Node) : Way p n [n] n
  | down {n c m : Node} {before after way : List Node} : n.children = before ++ c :: after → (∀ x ∈ before, Apart p x) →
      Around p c → Way p c way m → Way p n (n :: way) m

/-- The node at the position below (or at) a statement: the position is in the node, and in none of its children. -/
structure Found (p : Pos) (top : Node) (way : List Node) (n : Node) : Prop where
  way : Way p top way n
  around : Around p n
  innermost : ∀ c ∈ n.children, Apart p c

private theorem at?_spec (p : Pos) (n : Node) : OkThat (fun b => if b then Around p n else Apart p n) (at? p n) := by
  unfold at?
  refine OkThat.bindOption fun r hr => ?_
  refine OkThat.ok ?_
  cases h : inRange p (getRange r) with
  | true => exact ⟨r, hr, (C23_in_range_exact p _).1 h⟩
  | false =>
    refine ⟨r, hr, fun h' => ?_⟩
    rw [(C23_in_range_exact p _).2 h'] at h
    cases h

private theorem firstAt_spec (p : Pos) : ∀ l, OkThat (fun o => match o with
    | some c => ∃ b a, l = b ++ c :: a ∧ (∀ x ∈ b, Apart p x) ∧ Around p c
    | none => ∀ x ∈ l, Apart p x) (firstAt p l)
  | [] => OkThat.ok (by simp)
  | c :: l => by
    unfold firstAt
    refine (at?_spec p c).bind fun b hb => ?_
    cases b with
    | true => exact OkThat.ok ⟨[], l, rfl, by simp, hb⟩
    | false =>
      refine (firstAt_spec p l).mono fun o ho => ?_
      cases o with
      | none =>
        intro x hx
        rcases List.mem_cons.1 hx with rfl | hx
        · exact hb
        · exact ho x hx
      | some d =>
        obtain ⟨b, a, e, h1, h2⟩ := ho
        refine ⟨c :: b, a, by rw [e]; rfl, ?_, h2⟩
        intro x hx
        rcases List.mem_cons.1 hx with rfl | hx
        · exact hb
        · exact h1 x hx

private theorem find_spec (p : Pos) (fuel : Nat) : ∀ (n : Node) (above : List Node), OkThat (fun o => match o with
    | some (m, way) => ∃ w, way = above ++ w ∧ Found p n w m
    | none => Apart p n ∧ ∀ c ∈ n.children, Apart p c) (find p fuel n above) := by
  induction fuel with
  | zero => intro n above; exact OkThat.deep
  | succ fuel ih =>
    intro n above
    unfold find
    refine (firstAt_spec p n.children).bind fun o ho => ?_
    cases o with
    | some c =>
      obtain ⟨b, a, e, h1, h2⟩ := ho
      refine (ih c (above ++ [n])).mono fun o ho => ?_
      cases o with
      | none => exact absurd h2 ho.1.not
      | some x =>
        obtain ⟨w, e', hf⟩ := ho
        exact ⟨n :: w, by rw [e']; simp, .down e h1 h2 hf.way, hf.around, hf.innermost⟩
    | none =>
      refine (at?_spec p n).bind fun b hb => ?_
      cases b with
      | true => exact OkThat.ok ⟨[n], rfl, .here n, hb, ho⟩
      | false => exact OkThat.ok ⟨hb, ho⟩

/-- C46, the part that holds.  If a node is found, then below the first top level statement that contains the position, itself or
in a child; the way to it goes from parent to child, and the position is in the node but in none of its children.  If none is
found, the position is in none of the top level statements and in none of their children.  Missing: that the search never
crashes, for that see `C46_violated_crash`, and that no other node below is closer, see `C46_violated_match`. -/
theorem C46_found_partial (p : Pos) (fuel : Nat) : ∀ (ast : List Node), OkThat (fun o => match o with
    | some (m, way) => ∃ before top after, ast = before ++ top :: after ∧ Found p top way m ∧
        ∀ x ∈ before, Apart p x ∧ ∀ c ∈ x.children, Apart p c
    | none => ∀ x ∈ ast, Apart p x ∧ ∀ c ∈ x.children, Apart p c) (findIn p fuel ast)
  | [] => OkThat.ok (by simp)
  | n :: l => by
    unfold findIn
    refine (find_spec p fuel n []).bind fun o ho => ?_
    cases o with
    | some x =>
      obtain ⟨w, e, hf⟩ := ho
      rw [List.nil_append] at e
      exact OkThat.ok ⟨[], n, l, rfl, e ▸ hf, by simp⟩
    | none =>
      refine (C46_found_partial p fuel l).mono fun o h => ?_
      cases o with
      | none =>
        intro x hx
        rcases List.mem_cons.1 hx with rfl | hx
        · exact ho
        · exact h x hx
      | some y =>
        obtain ⟨b, t, a, e, h1, h2⟩ := h
        refine ⟨n :: b, t, a, by rw [e]; rfl, h1, ?_⟩
        intro x hx
        rcases List.mem_cons.1 hx with rfl | hx
        · exact ho
        · exact h2 x hx

/-- The way starts at the statement, ends at the node, and each of its nodes but the first contains the position. -/
theorem Way.ends {p : Pos} {n m : Node} {way : List Node} (h : Way p n way m) :
    way.head? = some n ∧ way.getLast? = some m ∧ ∀ x ∈ way.tail, Around p x := by
  induction h with
  | here n => simp
  | @down n c m before after way e hb hc hw ih =>
    refine ⟨rfl, ?_, ?_⟩
    · cases way with
      | nil => simp at ih
      | cons x way => rw [List.getLast?_cons_cons]; exact ih.2.1
    · intro x hx
      cases way with
      | nil => simp at ih
      | cons y way =>
        simp only [List.head?_cons, Option.some.injEq] at ih
        simp only [List.tail_cons] at hx ih
        rcases List.mem_cons.1 hx with rfl | hx
        · rw [ih.1]; exact hc
        · exact ih.2.2 x hx

/-- C46, the ancestors.  The nodes before the last one of the way are the parents: each is the parent of the next. -/
theorem C46_parents {p : Pos} {n m : Node} {way : List Node} (h : Way p n way m) :
    ∀ i (hi : i + 1 < way.length), way[i + 1] ∈ (way[i]'(by omega)).children := by
  induction h with
  | here n => intro i hi; simp at hi
  | @down n c m before after way e hb hc hw ih =>
    intro i hi
    cases i with
    | zero =>
      have := hw.ends.1
      cases way with
      | nil => simp at this
      | cons x way =>
        simp only [List.head?_cons, Option.some.injEq] at this
        simp [this, e]
    | succ i => exact ih i (by simpa using hi)

/-- The nodes of a tree that are reached from the root by going to children. -/
inductive Below : Node → Node → Prop where
  | here (n : Node) : Below n n
  | down {n c m : Node} : c ∈ n.children → Below c m → Below n m

private theorem at?_ok {p : Pos} {n : Node} (h : n.range ≠ none) : ∃ b, at? p n = .ok b := by
  unfold at?
  cases hr : n.range with
  | none => exact absurd hr h
  | some r => exact ⟨_, rfl⟩

private theorem firstAt_ok {p : Pos} : ∀ {l : List Node}, (∀ n ∈ l, n.range ≠ none) → ∃ o, firstAt p l = .ok o ∧
    ∀ c, o = some c → c ∈ l
  | [], _ => ⟨none, rfl, by simp⟩
  | n :: l, h => by
    obtain ⟨b, hb⟩ := at?_ok (p := p) (h n List.mem_cons_self)
    unfold firstAt
    rw [hb]
    cases b with
    | true => exact ⟨some n, rfl, by simp⟩
    | false =>
      obtain ⟨o, ho, hm⟩ := firstAt_ok (p := p) fun x hx => h x (List.mem_cons_of_mem _ hx)
      exact ⟨o, ho, fun c hc => List.mem_cons_of_mem _ (hm c hc)⟩

private theorem find_ok (p : Pos) (fuel : Nat) : ∀ (n : Node) (above : List Node), sizeOf n < fuel →
    (∀ m, Below n m → m.range ≠ none) → ∃ o, find p fuel n above = .ok o := by
  induction fuel with
  | zero => intro n _ h; omega
  | succ fuel ih =>
    intro n above hf hr
    obtain ⟨o, ho, hm⟩ := firstAt_ok (p := p) (l := n.children) fun c hc => hr c (.down hc (.here c))
    unfold find
    rw [ho]
    cases o with
    | some c =>
      have hc := hm c rfl
      have := children_lt n c hc
      exact ih c _ (by omega) fun m hb => hr m (.down hc hb)
    | none =>
      obtain ⟨b, hb⟩ := at?_ok (p := p) (hr n (.here n))
      simp only [bind_ok, hb]
      cases b with
      | true => exact ⟨_, rfl⟩
      | false => exact ⟨_, rfl⟩

/-- C46, the search comes to an end: if the range of each node below the statements can be computed, the search does not crash
and needs no more depth than the size of the statements. -/
theorem C46_ends_partial (p : Pos) (fuel : Nat) : ∀ (ast : List Node), (∀ n ∈ ast, sizeOf n < fuel) →
    (∀ n ∈ ast, ∀ m, Below n m → m.range ≠ none) → ∃ o, findIn p fuel ast = .ok o
  | [], _, _ => ⟨none, rfl⟩
  | n :: l, hf, hr => by
    obtain ⟨o, ho⟩ := find_ok p fuel n [] (hf n List.mem_cons_self) (hr n List.mem_cons_self)
    unfold findIn
    rw [ho]
    cases o with
    | some x => exact ⟨some x, rfl⟩
    | none =>
      exact C46_ends_partial p fuel l (fun x hx => hf x (List.mem_cons_of_mem _ hx)) fun x hx => hr x (List.mem_cons_of_mem _ hx)

/-- What is found at a position of a text: the places of the node and of its ancestors. -/
def foundIn (text : Text) (p : Pos) : Out (Option (Option NodeRange × List (Option NodeRange))) := do
  match ← Backend.sourceToAst plainHost text with
  | none => .ok none
  | some (ast, _) => do
    let o ← findIn p 60 ast
    pure (o.map fun x => (x.1.range, x.2.dropLast.map Node.range))

/-- A run that meets the hypotheses: the cursor behind `b` in `if ($a) { $b; }`.  The ancestors are the statement, the branch of
the `if`, the block, and the statement in it. -/
example : foundIn c!"<?php if ($a) { $b; }" ⟨0, 17⟩ =
    .ok (some (some ⟨16, 0, 18, 0⟩, [some ⟨6, 0, 21, 0⟩, some ⟨6, 0, 21, 0⟩, some ⟨14, 0, 21, 0⟩, some ⟨16, 0, 18, 0⟩])) := by
  decide +kernel

/-- C46 is violated: a `case` without statements has no range, and asking for it crashes the server: completion anywhere in the
braces of `switch ($x) { case 1: }` does it. -/
theorem C46_violated_crash : foundIn c!"<?php switch ($x) { case 1: }" ⟨0, 28⟩ = .panic := by decide +kernel

/-- C46 is violated: the range of a `match` begins at its brace.  The cursor is in the member `a` of
`match ($x->a) { 1 => 2 }`, but no node is found there. -/
theorem C46_violated_match : foundIn c!"<?php match ($x->a) { 1 => 2 };" ⟨0, 17⟩ = .ok none ∧
    foundIn c!"<?php print ($x->a);" ⟨0, 17⟩ = .ok (some (some ⟨17, 0, 18, 0⟩,
      [some ⟨6, 0, 18, 0⟩, some ⟨13, 0, 18, 0⟩, some ⟨13, 0, 18, 0⟩])) := by
  decide +kernel

end PhpLs.Suggester
