import Verif.Props.ParserExpr

/-!
# C21: the modifiers of class members
-/

namespace PhpLs.Parser

open PhpLs Ex

/-! ## Specification -/

/-- The place of a modifier in the order the code expects: abstract, final, visibility, static. -/
def modRank : TT → Nat
  | .kwAbstract => 0
  | .kwFinal => 1
  | .kwPublic | .kwVar | .kwPrivate | .kwProtected => 2
  | _ => 3

/-- The modifiers of `ms`, one of each kind. -/
def slots (ms : List Token) : Modifiers :=
  (ms.find? (modRank ·.t == 0), ms.find? (modRank ·.t == 1), ms.find? (modRank ·.t == 2), ms.find? (modRank ·.t == 3))

/-- The modifiers are in the order the code expects, with none of them twice. -/
def InOrder (ms : List Token) : Prop := ms.Pairwise fun a b => modRank a.t < modRank b.t

instance (ms : List Token) : Decidable (InOrder ms) := by unfold InOrder; infer_instance

/-- The longest ending of `ms` that is in order. -/
def lastRun : List Token → List Token
  | [] => []
  | k :: ms => if InOrder (k :: ms) then k :: ms else lastRun ms

/-- Modifier tokens. -/
def AllMods (ms : List Token) : Prop := ∀ k ∈ ms, Plain k ∧ k.t ∈ modifierSet

/-- All modifiers are recorded. -/
def Recorded (ms : List Token) (m : Modifiers) : Prop :=
  ∀ k ∈ ms, some k = m.1 ∨ some k = m.2.1 ∨ some k = m.2.2.1 ∨ some k = m.2.2.2

/-! ## One turn of the loop -/

variable {doc : Token → Option Node} {rest : List Token}

/-- Taking the first token if it is of rank `n`. -/
def popRank (n : Nat) : List Token → Option Token × List Token
  | [] => (none, [])
  | k :: ms => if modRank k.t = n then (some k, ms) else (none, k :: ms)

/-- One turn takes modifiers of rank 0, 1, 2 and 3. -/
def popRun (ms : List Token) : Modifiers × List Token :=
  let (a, m1) := popRank 0 ms
  let (b, m2) := popRank 1 m1
  let (c, m3) := popRank 2 m2
  let (d, m4) := popRank 3 m3
  ((a, b, c, d), m4)

theorem popRank_eq (n : Nat) (ms : List Token) : (popRank n ms).1.toList ++ (popRank n ms).2 = ms := by
  cases ms with
  | nil => rfl
  | cons k ms =>
    simp only [popRank]
    split <;> rfl

theorem popRank_reads {n : Nat} {f : Token → Bool} {ms : List Token} (hm : AllMods ms) {k : Token} (hk : Plain k)
    (hf : ∀ x ∈ ms, f x = decide (modRank x.t = n)) (hfk : f k = false) :
    Reads doc (fun _ => takeIf f) (popRank n ms).1.toList ((popRank n ms).2 ++ k :: rest) (popRank n ms).1 := by
  cases ms with
  | nil => exact Reads.takeIf_no hk hfk
  | cons x ms =>
    have hx := hm x (List.mem_cons_self ..)
    have hfx := hf x (List.mem_cons_self ..)
    simp only [popRank]
    split
    · rename_i h
      exact Reads.takeIf_yes hx.1 (by rw [hfx]; simpa using h)
    · rename_i h
      exact Reads.takeIf_no hx.1 (by rw [hfx]; simpa using h)

theorem allMods_pop {n : Nat} {ms : List Token} (h : AllMods ms) : AllMods (popRank n ms).2 := by
  intro k hk
  refine h k ?_
  rw [← popRank_eq n ms]
  exact List.mem_append_right _ hk

/-- The four modifiers of one turn. -/
def turn : P (Modifiers ⊕ Modifiers) := do
  let a ← consumeOrIgnore .kwAbstract
  let f ← consumeOrIgnore .kwFinal
  let v ← consumeOneOfOrIgnore [.kwPublic, .kwVar, .kwPrivate, .kwProtected]
  let st ← consumeOrIgnore .kwStatic
  pure (.inl (a, f, v, st))

/-- The body of the loop. -/
def modBody (m : Modifiers) : P (Modifiers ⊕ Modifiers) := do
  if ← nextOneOf modifierSet then turn
  else pure (.inr m)

theorem turn_reads {ms : List Token} (hm : AllMods ms) {k : Token} (hk : Plain k) (hk' : k.t ∉ modifierSet) :
    ∃ us, us ++ (popRun ms).2 = ms ∧ Reads doc (fun _ => turn) us ((popRun ms).2 ++ k :: rest) (.inl (popRun ms).1) := by
  have hne : ∀ t ∈ modifierSet, k.t ≠ t := fun t ht he => hk' (he ▸ ht)
  have e0 : ∀ x ∈ ms, (fun k : Token => k.t == TT.kwAbstract) x = decide (modRank x.t = 0) := by
    intro x hx
    have : ∀ t ∈ modifierSet, (t == TT.kwAbstract) = decide (modRank t = 0) := by decide
    exact this _ (hm x hx).2
  have e1 : ∀ ms, AllMods ms → ∀ x ∈ ms, (fun k : Token => k.t == TT.kwFinal) x = decide (modRank x.t = 1) := by
    intro ms hm x hx
    have : ∀ t ∈ modifierSet, (t == TT.kwFinal) = decide (modRank t = 1) := by decide
    exact this _ (hm x hx).2
  have e2 : ∀ ms, AllMods ms → ∀ x ∈ ms, (fun k : Token => [TT.kwPublic, .kwVar, .kwPrivate, .kwProtected].contains k.t) x =
      decide (modRank x.t = 2) := by
    intro ms hm x hx
    have : ∀ t ∈ modifierSet, [TT.kwPublic, .kwVar, .kwPrivate, .kwProtected].contains t = decide (modRank t = 2) := by
      decide
    exact this _ (hm x hx).2
  have e3 : ∀ ms, AllMods ms → ∀ x ∈ ms, (fun k : Token => k.t == TT.kwStatic) x = decide (modRank x.t = 3) := by
    intro ms hm x hx
    have : ∀ t ∈ modifierSet, (t == TT.kwStatic) = decide (modRank t = 3) := by decide
    exact this _ (hm x hx).2
  have m1 := allMods_pop (n := 0) hm
  have m2 := allMods_pop (n := 1) m1
  have m3 := allMods_pop (n := 2) m2
  refine ⟨(popRank 0 ms).1.toList ++ ((popRank 1 (popRank 0 ms).2).1.toList ++
    ((popRank 2 (popRank 1 (popRank 0 ms).2).2).1.toList ++
      (popRank 3 (popRank 2 (popRank 1 (popRank 0 ms).2).2).2).1.toList)), ?_, ?_⟩
  · show _ ++ (popRank 3 (popRank 2 (popRank 1 (popRank 0 ms).2).2).2).2 = ms
    simp only [List.append_assoc]
    rw [popRank_eq, popRank_eq, popRank_eq, popRank_eq]
  · unfold turn
    refine Reads.bind (a := (popRank 0 ms).1) ?_ ?_
    · have := popRank_reads (doc := doc) (rest := rest) hm hk e0 (by simpa using hne .kwAbstract (by decide))
      simp only [List.append_assoc]
      show Reads doc _ _ (_ ++ (_ ++ (_ ++ ((popRank 3 (popRank 2 (popRank 1 (popRank 0 ms).2).2).2).2 ++ k :: rest)))) _
      rw [← List.append_assoc (popRank 3 _).1.toList, popRank_eq, ← List.append_assoc (popRank 2 _).1.toList, popRank_eq,
        ← List.append_assoc (popRank 1 _).1.toList, popRank_eq]
      exact this
    · refine Reads.bind (a := (popRank 1 (popRank 0 ms).2).1) ?_ ?_
      · have := popRank_reads (doc := doc) (rest := rest) m1 hk (e1 _ m1) (by simpa using hne .kwFinal (by decide))
        simp only [List.append_assoc]
        show Reads doc _ _ (_ ++ (_ ++ ((popRank 3 (popRank 2 (popRank 1 (popRank 0 ms).2).2).2).2 ++ k :: rest))) _
        rw [← List.append_assoc (popRank 3 _).1.toList, popRank_eq, ← List.append_assoc (popRank 2 _).1.toList, popRank_eq]
        exact this
      · refine Reads.bind (a := (popRank 2 (popRank 1 (popRank 0 ms).2).2).1) ?_ ?_
        · have := popRank_reads (doc := doc) (rest := rest) m2 hk (e2 _ m2) (by
            have h1 := hne .kwPublic (by decide)
            have h2 := hne .kwVar (by decide)
            have h3 := hne .kwPrivate (by decide)
            have h4 := hne .kwProtected (by decide)
            simp [h1, h2, h3, h4])
          show Reads doc _ _ (_ ++ ((popRank 3 (popRank 2 (popRank 1 (popRank 0 ms).2).2).2).2 ++ k :: rest)) _
          rw [← List.append_assoc (popRank 3 _).1.toList, popRank_eq]
          exact this
        · refine Reads.bind_last (popRank_reads (doc := doc) (rest := rest) m3 hk (e3 _ m3)
            (by simpa using hne .kwStatic (by decide))) ?_
          exact Reads.pure

/-! ## What one turn takes -/

theorem modRank_le (t : TT) : modRank t ≤ 3 := by
  cases t <;> decide

theorem popRank_spec (n : Nat) (ms : List Token) : ∃ o m, popRank n ms = (o, m) ∧ ms = o.toList ++ m ∧
    (∀ k, o = some k → modRank k.t = n) ∧ (o = none → ∀ k r, m = k :: r → modRank k.t ≠ n) := by
  cases ms with
  | nil => exact ⟨none, [], rfl, rfl, fun _ h => (by cases h), fun _ _ _ h => (by cases h)⟩
  | cons k ms =>
    by_cases h : modRank k.t = n
    · exact ⟨some k, ms, by simp [popRank, h], rfl, fun _ e => by injection e with e; exact e ▸ h, fun e => (by cases e)⟩
    · exact ⟨none, k :: ms, by simp [popRank, h], rfl, fun _ e => (by cases e),
        fun _ _ _ e => by injection e with e _; exact e ▸ h⟩

/-- Splitting `ms` where it stops being in order. -/
theorem popRun_spec (ms : List Token) : ∃ run, run ++ (popRun ms).2 = ms ∧
    (popRun ms).1 = slots run ∧ InOrder run ∧ (ms ≠ [] → run ≠ []) ∧
    ∀ k r, (popRun ms).2 = k :: r → ¬ InOrder (run ++ [k]) := by
  obtain ⟨a, m1, e0, rfl, ha, na⟩ := popRank_spec 0 ms
  obtain ⟨b, m2, e1, rfl, hb, nb⟩ := popRank_spec 1 m1
  obtain ⟨c, m3, e2, rfl, hc, nc⟩ := popRank_spec 2 m2
  obtain ⟨d, m, e3, rfl, hd, nd⟩ := popRank_spec 3 m3
  simp only [popRun, e0, e1, e2, e3]
  refine ⟨a.toList ++ b.toList ++ c.toList ++ d.toList, by simp, ?_, ?_, ?_, ?_⟩
  · rcases a with _ | a <;> rcases b with _ | b <;> rcases c with _ | c <;> rcases d with _ | d <;>
      simp_all [slots]
  · rcases a with _ | a <;> rcases b with _ | b <;> rcases c with _ | c <;> rcases d with _ | d <;>
      simp_all [InOrder]
  · intro hne hr
    simp only [List.append_eq_nil_iff, Option.toList_eq_nil_iff] at hr
    obtain ⟨⟨⟨rfl, rfl⟩, rfl⟩, rfl⟩ := hr
    cases m with
    | nil => exact hne rfl
    | cons k r =>
      have h0 := na rfl k r rfl
      have h1 := nb rfl k r rfl
      have h2 := nc rfl k r rfl
      have h3 := nd rfl k r rfl
      have := modRank_le k.t
      omega
  · rintro k r rfl
    have hle := modRank_le k.t
    rcases a with _ | a <;> rcases b with _ | b <;> rcases c with _ | c <;> rcases d with _ | d <;>
      simp_all [InOrder] <;> omega

/-! ## The longest ending in order -/

theorem lastRun_of_inOrder {ms : List Token} (h : InOrder ms) : lastRun ms = ms := by
  cases ms with
  | nil => rfl
  | cons k ms => simp [lastRun, h]

theorem lastRun_append {run : List Token} {k : Token} {r : List Token} (h : InOrder run) (hne : run ≠ [])
    (hk : ¬ InOrder (run ++ [k])) : lastRun (run ++ k :: r) = lastRun (k :: r) := by
  induction run with
  | nil => exact absurd rfl hne
  | cons x run ih =>
    have hno : ¬ InOrder ((x :: run) ++ k :: r) := by
      intro h'
      apply hk
      unfold InOrder at h' ⊢
      exact h'.sublist (List.Sublist.append (.refl _) (.cons_cons _ (List.nil_sublist _)))
    rw [List.cons_append] at hno ⊢
    rw [lastRun, if_neg hno]
    cases run with
    | nil => rfl
    | cons y run =>
      have h' : InOrder (y :: run) := (List.pairwise_cons.1 h).2
      refine ih h' (by simp) fun hy => hk ?_
      unfold InOrder at h hy ⊢
      rw [List.cons_append]
      refine List.pairwise_cons.2 ⟨fun z hz => ?_, hy⟩
      have hx := (List.pairwise_cons.1 h).1
      rcases List.mem_append.1 hz with hz | hz
      · exact hx z hz
      · have h1 := hx y (List.mem_cons_self ..)
        have h2 := (List.pairwise_cons.1 hy).1 k (by simp)
        have hz : z = k := by simpa using hz
        subst hz
        omega

/-! ## C21 -/

theorem mods_loop {k : Token} (hk : Plain k) (hk' : k.t ∉ modifierSet) : ∀ (n : Nat) (ms : List Token), ms.length ≤ n →
    AllMods ms → ∀ m, LoopReads doc .other (fun _ => modBody) m ms (k :: rest) (if ms = [] then m else slots (lastRun ms)) := by
  intro n
  induction n with
  | zero =>
    intro ms hn _ m
    have : ms = [] := List.length_eq_zero_iff.1 (by omega)
    subst this
    refine LoopReads.stop ?_
    unfold modBody
    exact Reads.bind0 (Reads.nextOneOf_no hk hk') Reads.pure
  | succ n ih =>
    intro ms hn hm m
    cases ms with
    | nil =>
      refine LoopReads.stop ?_
      unfold modBody
      exact Reads.bind0 (Reads.nextOneOf_no hk hk') Reads.pure
    | cons x ms =>
      obtain ⟨us, h1, h2⟩ := turn_reads (doc := doc) (rest := rest) hm hk hk'
      obtain ⟨run, h3, h4, h5, h6, h7⟩ := popRun_spec (x :: ms)
      generalize popRun (x :: ms) = p at h1 h2 h3 h4 h7
      obtain ⟨pm, pr⟩ := p
      have hus : us = run := List.append_cancel_right (h1.trans h3.symm)
      subst hus
      have hne := h6 (by simp)
      simp only at h1 h2 h4 h7
      have hx := hm x (List.mem_cons_self ..)
      have hbody : Reads doc (fun _ => modBody m) us (pr ++ k :: rest) (.inl pm) := by
        unfold modBody
        refine Reads.bind0 (a := true) ?_ h2
        rw [← List.append_assoc, h1]
        exact Reads.nextOneOf_yes hx.1 hx.2
      have hlen : pr.length ≤ n := by
        have := congrArg List.length h1
        have : 0 < us.length := List.length_pos_iff.2 hne
        simp at *
        omega
      have hpm : AllMods pr := fun y hy => hm y (h1 ▸ List.mem_append_right _ hy)
      have := LoopReads.step hbody (ih pr hlen hpm pm)
      rw [h1] at this
      simp only [if_neg (List.cons_ne_nil x ms)]
      have e : (if pr = [] then pm else slots (lastRun pr)) = slots (lastRun (x :: ms)) := by
        cases pr with
        | nil =>
          rw [List.append_nil] at h1
          rw [← h1, lastRun_of_inOrder h5, if_pos rfl, h4]
        | cons y pr =>
          rw [if_neg (by simp), ← h1, lastRun_append h5 hne (h7 y pr rfl)]
      rwa [e] at this

/-- C21, what the code does, for any sequence of modifiers: it keeps the longest ending that is in the order abstract, final,
visibility, static, and drops everything before. -/
theorem C21_modifiers_kept {ms : List Token} (hm : AllMods ms) {k : Token} (hk : Plain k) (hk' : k.t ∉ modifierSet) :
    Reads doc modifiers ms (k :: rest) (slots (lastRun ms)) := by
  have := mods_loop (doc := doc) (rest := rest) hk hk' ms.length ms (Nat.le_refl _) hm (none, none, none, none)
  have e : (if ms = [] then (none, none, none, none) else slots (lastRun ms)) = slots (lastRun ms) := by
    split
    · rename_i h; subst h; rfl
    · rfl
  rw [e] at this
  exact Reads.loop this

theorem lastRun_suffix (ms : List Token) : ∃ us, us ++ lastRun ms = ms ∧ InOrder (lastRun ms) ∧
    (us = [] → InOrder ms) := by
  induction ms with
  | nil => exact ⟨[], rfl, .nil, fun _ => .nil⟩
  | cons k ms ih =>
    by_cases h : InOrder (k :: ms)
    · exact ⟨[], by rw [lastRun_of_inOrder h]; rfl, by rw [lastRun_of_inOrder h]; exact h, fun _ => h⟩
    · obtain ⟨us, h1, h2, -⟩ := ih
      refine ⟨k :: us, ?_, ?_, fun e => (by cases e)⟩
      · rw [lastRun, if_neg h, List.cons_append, h1]
      · rw [lastRun, if_neg h]; exact h2

theorem slots_mem {ms : List Token} {k : Token} (h : some k = (slots ms).1 ∨ some k = (slots ms).2.1 ∨
    some k = (slots ms).2.2.1 ∨ some k = (slots ms).2.2.2) : k ∈ ms := by
  unfold slots at h
  rcases h with h | h | h | h <;> exact List.mem_of_find?_eq_some h.symm

theorem find_rank {ms : List Token} (h : InOrder ms) {k : Token} (hk : k ∈ ms) :
    ms.find? (modRank ·.t == modRank k.t) = some k := by
  induction ms with
  | nil => cases hk
  | cons x ms ih =>
    have hx := List.pairwise_cons.1 h
    rcases List.mem_cons.1 hk with rfl | hk
    · simp
    · have : modRank x.t ≠ modRank k.t := by have := hx.1 k hk; omega
      rw [List.find?_cons_of_neg (by simpa using this)]
      exact ih hx.2 hk

/-- C21: the modifiers that are recorded are all that are written iff they are written in the order abstract, final,
visibility, static.  So the claim of C21 holds in this order and in no other one. -/
theorem C21_all_recorded_iff {ms : List Token} (hn : ms.Nodup) :
    Recorded ms (slots (lastRun ms)) ↔ InOrder ms := by
  constructor
  · intro h
    obtain ⟨us, h1, h2, h3⟩ := lastRun_suffix ms
    apply h3
    cases us with
    | nil => rfl
    | cons x us =>
      exfalso
      have hx := slots_mem (h x (h1 ▸ List.mem_append_left _ (List.mem_cons_self ..)))
      rw [← h1] at hn
      have := (List.nodup_append.1 hn).2.2 x (List.mem_cons_self ..) x hx
      exact this rfl
  · intro h k hk
    rw [lastRun_of_inOrder h]
    have := find_rank h hk
    have hle := modRank_le k.t
    unfold slots
    have : modRank k.t = 0 ∨ modRank k.t = 1 ∨ modRank k.t = 2 ∨ modRank k.t = 3 := by omega
    rcases this with e | e | e | e <;> rw [e] at this <;> simp_all

/-- C21 for modifiers in the order abstract, final, visibility, static: all are kept. -/
theorem C21_in_order_partial {ms : List Token} (hm : AllMods ms) (ho : InOrder ms) {k : Token} (hk : Plain k)
    (hk' : k.t ∉ modifierSet) :
    ∃ m, Reads doc modifiers ms (k :: rest) m ∧ Recorded ms m := by
  refine ⟨_, C21_modifiers_kept hm hk hk', ?_⟩
  refine (C21_all_recorded_iff ?_).2 ho
  exact ho.imp fun h e => by subst e; omega

/-- C21 up to the tree: a property with any modifiers. -/
theorem C21_property {ms : List Token} (hm : AllMods ms) {v semi : Token} (hv : Plain v ∧ v.t = .variable)
    (hs : Plain semi ∧ semi.t = .semicolon) (d : Option Node) (as : List Node) :
    Reads doc (fun r => classMember r d as) (ms ++ [v, semi]) rest
      (.propertyDefinitionStatement [.property v none] d (slots (lastRun ms)).2.2.1 none (slots (lastRun ms)).2.2.2
        (slots (lastRun ms)).1 as) := by
  unfold classMember
  refine Reads.bind (a := slots (lastRun ms)) (C21_modifiers_kept hm hv.1 (by rw [hv.2]; decide)) ?_
  refine Reads.bind0 (Reads.ignore_no hv.1 (by rw [hv.2]; decide)) ?_
  refine Reads.bind0 (Reads.ignore_no hv.1 (by rw [hv.2]; decide)) ?_
  refine Reads.bind0 (a := none) ?_ ?_
  · exact Reads.bind_last (Reads.nextOneOf_yes hv.1 (by simp [hv.2])) Reads.pure
  · refine Reads.bind1 (a := [Node.property v none]) (ts := [semi]) ?_ ?_
    · unfold classProps
      refine Reads.loop (LoopReads.stop ?_)
      refine Reads.bind1 (ts := []) (Reads.consume hv.1 hv.2) ?_
      refine Reads.bind0 (a := none) (Reads.bind_last (Reads.ignore_no hs.1 (by rw [hs.2]; decide)) Reads.pure) ?_
      refine Reads.bind0 (Reads.ignore_no hs.1 (by rw [hs.2]; decide)) ?_
      exact Reads.pure
    · exact Reads.bind1 (ts := []) (Reads.ffAfter_yes hs.1 hs.2) Reads.pure

/-- `static public $x;` loses `static`. -/
theorem C21_fails_static_public {st pu : Token} (hs : st.t = .kwStatic) (hp : pu.t = .kwPublic) :
    slots (lastRun [st, pu]) = (none, none, some pu, none) := by
  have h : ¬ InOrder [st, pu] := by simp [InOrder, hs, hp, modRank]
  have h' : InOrder [pu] := by simp [InOrder]
  rw [lastRun, if_neg h, lastRun_of_inOrder h']
  simp [slots, hp, modRank]

/-- `public abstract function` and `public final function` lose the visibility. -/
theorem C21_fails_public_abstract {pu ab : Token} (hp : pu.t = .kwPublic) (ha : ab.t = .kwAbstract ∨ ab.t = .kwFinal) :
    (slots (lastRun [pu, ab])).2.2.1 = none := by
  have h : ¬ InOrder [pu, ab] := by rcases ha with ha | ha <;> simp [InOrder, ha, hp, modRank]
  have h' : InOrder [ab] := by simp [InOrder]
  rw [lastRun, if_neg h, lastRun_of_inOrder h']
  rcases ha with ha | ha <;> simp [slots, ha, modRank]

/-- `public static $x;` satisfies the hypotheses: both are kept. -/
example : ∃ m, Reads doc modifiers [tok .kwPublic 0, tok .kwStatic 7] [tok .variable 14 (some ['x']), tok .semicolon 16] m ∧
    Recorded [tok .kwPublic 0, tok .kwStatic 7] m := by
  refine C21_in_order_partial ?_ (by decide) ⟨rfl, by decide, ⟨_, rfl⟩⟩ (by decide)
  intro k hk
  simp only [List.mem_cons, List.not_mem_nil, or_false] at hk
  rcases hk with rfl | rfl <;> exact ⟨⟨rfl, by decide, ⟨_, rfl⟩⟩, by decide⟩

end PhpLs.Parser
