import Verif.Fs

/-!
# C50: reading a line range of a file; C51: listing the PHP files of a folder
-/

namespace PhpLs.Fs

/-! ## C50 -/

/-- Specification: the lines with the numbers `a` to `b`, counted from zero, each followed by a line feed. -/
def linesBetween (ls : List Text) (a b : Nat) : Text :=
  ((ls.zipIdx.filter fun p => a ≤ p.2 && p.2 ≤ b).map fun p => p.1 ++ ['\n']).flatten

theorem zipIdx_filter (ls : List Text) (k a b : Nat) :
    (ls.zipIdx k).filter (fun p => a ≤ p.2 && p.2 ≤ b) = ((ls.zipIdx k).drop (a - k)).take (b + 1 - max a k) := by
  induction ls generalizing k with
  | nil => simp
  | cons l ls ih =>
    rw [List.zipIdx_cons, List.filter_cons, ih]
    by_cases h1 : a ≤ k
    · have e1 : a - k = 0 := by omega
      have e2 : a - (k + 1) = 0 := by omega
      have e3 : max a k = k := by omega
      have e4 : max a (k + 1) = k + 1 := by omega
      rw [e1, e2, e3, e4]
      by_cases h2 : k ≤ b
      · have e5 : b + 1 - k = (b + 1 - (k + 1)) + 1 := by omega
        rw [e5]
        simp [h1, h2]
      · have e5 : b + 1 - k = 0 := by omega
        have e6 : b + 1 - (k + 1) = 0 := by omega
        rw [e5, e6]
        simp [h2]
    · have e1 : a - k = (a - (k + 1)) + 1 := by omega
      have e3 : max a k = max a (k + 1) := by omega
      rw [e1, e3]
      simp [h1]

/-- **C50, content.**  For an ordered line range that does not cover all of `u32`, exactly the lines in the range are
returned, and fewer if the file has fewer. -/
theorem C50_reads_exactly_partial (content : Text) (a b : Nat) (h : a ≤ b) (hb : b ≤ u32Max)
    (hfull : ¬ (a = 0 ∧ b = u32Max)) :
    fileReadRange (some content) a b = some (linesBetween (lines content) a b) := by
  unfold fileReadRange linesBetween
  have h1 : ¬ b < a := by omega
  have h2 : ¬ b - a + 1 > u32Max := by omega
  simp only [h1, h2, ↓reduceIte]
  rw [zipIdx_filter]
  have e : b + 1 - max a 0 = b - a + 1 := by omega
  rw [e, Nat.sub_zero, ← List.flatMap_def]
  congr 1
  conv => lhs; rw [← List.zipIdx_map_fst 0 (lines content)]
  rw [← List.map_drop, ← List.map_take, List.flatMap_map]

/-- A file that cannot be read does not crash the function either. -/
theorem C50_unreadable (a b : Nat) : ∃ t, fileReadRange none a b = some t := ⟨_, rfl⟩

/-- **C50 fails.**  The function crashes exactly on line ranges that end before they start and on the one range that
covers all of `u32`. -/
theorem C50_fails_iff (content : Text) (a b : Nat) (hb : b ≤ u32Max) :
    fileReadRange (some content) a b = none ↔ (b < a ∨ (a = 0 ∧ b = u32Max)) := by
  unfold fileReadRange
  by_cases h1 : b < a
  · simp [h1]
  · by_cases h2 : b - a + 1 > u32Max
    · simp only [h1, h2, ↓reduceIte, true_iff]
      omega
    · simp only [h1, h2, ↓reduceIte, reduceCtorEq, false_iff]
      rintro (h | ⟨ha, hm⟩)
      · exact h.elim
      · subst ha
        rw [hm] at h2
        omega

/-! The lines of a text: what `lines` gives is pinned down by texts that are put together from lines. -/

theorem linesGo_append {l : Text} (h : '\n' ∉ l) (acc rest : Text) :
    linesGo acc (l ++ rest) = linesGo (l.reverse ++ acc) rest := by
  induction l generalizing acc with
  | nil => rfl
  | cons c l ih =>
    have hc : c ≠ '\n' := by rintro rfl; exact h (List.mem_cons_self ..)
    have hl : '\n' ∉ l := fun hm => h (List.mem_cons_of_mem _ hm)
    rw [List.cons_append, linesGo, if_neg hc, ih hl]
    simp

/-- **C50, lines.**  A line that ends with a line feed is the first of the lines; it has neither a line feed nor, at its
end, a carriage return. -/
theorem C50_lines_cons (l rest : Text) (h : '\n' ∉ l) (hr : l.getLast? ≠ some '\r') :
    lines (l ++ '\n' :: rest) = l :: lines rest ∧ lines (l ++ '\r' :: '\n' :: rest) = l :: lines rest := by
  have key : ∀ acc : Text, (∀ xs, acc ≠ '\r' :: xs) → stripCr acc = acc.reverse := by
    intro acc hacc
    unfold stripCr
    split
    · exact absurd rfl (hacc _)
    · rfl
  constructor
  · unfold lines
    rw [linesGo_append h, List.append_nil, linesGo, if_pos rfl, key, List.reverse_reverse]
    intro xs hx
    apply hr
    have := congrArg List.reverse hx
    rw [List.reverse_reverse] at this
    rw [this]
    simp
  · unfold lines
    have : l ++ '\r' :: '\n' :: rest = (l ++ ['\r']) ++ '\n' :: rest := by simp
    rw [this, linesGo_append, List.append_nil, linesGo, if_pos rfl]
    · simp [stripCr]
    · simp [h]

/-- A last line without a line feed counts as a line, unless it is empty. -/
theorem C50_lines_last (l : Text) (h : '\n' ∉ l) : lines l = if l = [] then [] else [l] := by
  unfold lines
  have := linesGo_append h [] []
  rw [List.append_nil, List.append_nil] at this
  rw [this, linesGo]
  simp

/- Lines 1 to 2 of a file of four lines. -/
example : fileReadRange (some c!"<?php\necho 1;\r\n\nfoo();") 1 2 = some c!"echo 1;\n\n" := by decide

/- The hypotheses of `C50_lines_cons` hold for a usual line. -/
example : '\n' ∉ c!"echo 1;" ∧ (c!"echo 1;").getLast? ≠ some '\r' := by decide

/-! ## C51 -/

/-- Specification: `f` is the path of a file that is found below the folder `dir` when walking down the tree, `steps` are
the paths of everything one passes on the way, the file included. -/
inductive Below : Path → List Entry → Path → List Path → Prop where
  | file {dir : Path} {es : List Entry} {n : Text} : Entry.file n ∈ es → Below dir es (dir ++ [n]) [dir ++ [n]]
  | dir {dir : Path} {es inner : List Entry} {n : Text} {f : Path} {steps : List Path} : Entry.dir n inner ∈ es →
      Below (dir ++ [n]) inner f steps → Below dir es f ((dir ++ [n]) :: steps)

/-- Specification: a path is ignored if its last components are those of an ignored path. -/
def Ignored (ignore : List Path) (p : Path) : Prop := ∃ s ∈ ignore, ∃ front, p = front ++ s

/-- Specification: a PHP file's name is anything that is not empty, a dot and `php`. -/
def PhpName (n : Text) : Prop := ∃ stem : Text, stem ≠ [] ∧ n = stem ++ c!".php"

/-- No entry of the tree is one the listing fails at. -/
inductive Sound : List Entry → Prop where
  | nil : Sound []
  | file {n : Text} {es : List Entry} : Sound es → Sound (.file n :: es)
  | dir {n : Text} {inner es : List Entry} : Sound inner → Sound es → Sound (.dir n inner :: es)

/-- The name of an entry. -/
def Entry.name? : Entry → Option Text
  | .file n => some n
  | .dir n _ => some n
  | .broken => none

/-- As in every file system, the entries of one folder have different names. -/
inductive Distinct : List Entry → Prop where
  | nil : Distinct []
  | file {n : Text} {es : List Entry} : (∀ e ∈ es, e.name? ≠ some n) → Distinct es → Distinct (.file n :: es)
  | dir {n : Text} {inner es : List Entry} : (∀ e ∈ es, e.name? ≠ some n) → Distinct inner → Distinct es →
      Distinct (.dir n inner :: es)
  | broken {es : List Entry} : Distinct es → Distinct (.broken :: es)

theorem takeWhile_ne_append {α : Type} [DecidableEq α] (x : α) (a b : List α) (h : x ∉ a) :
    (a ++ x :: b).takeWhile (· ≠ x) = a ∧ (a ++ x :: b).dropWhile (· ≠ x) = x :: b := by
  induction a with
  | nil => simp
  | cons y a ih =>
    have hy : y ≠ x := by rintro rfl; exact h (List.mem_cons_self ..)
    have := ih fun hm => h (List.mem_cons_of_mem _ hm)
    rw [List.cons_append, List.takeWhile_cons, List.dropWhile_cons]
    simp only [ne_eq, hy, not_false_eq_true, decide_true, ↓reduceIte]
    exact ⟨congrArg _ this.1, this.2⟩

/-- The extension test of the code is the specification's. -/
theorem extension_php (n : Text) : extension n = some c!"php" ↔ PhpName n := by
  constructor
  · intro h
    unfold extension at h
    split at h
    · cases h
    · rename_i hdots
      dsimp only at h
      split at h
      · cases h
      · rename_i hlen
        injection h with h
        have hsplit := List.takeWhile_append_dropWhile (p := fun c : Char => decide (c ≠ '.')) (l := n.reverse)
        cases hd : n.reverse.dropWhile (fun c => decide (c ≠ '.')) with
        | nil => rw [hd] at hlen; simp at hlen
        | cons c rest =>
          have hc : c = '.' := by
            have := List.head?_dropWhile_not (p := fun c : Char => decide (c ≠ '.')) (l := n.reverse)
            rw [hd] at this
            simpa using this
          subst hc
          rw [hd] at hlen hsplit
          refine ⟨rest.reverse, ?_, ?_⟩
          · intro e
            have : rest = [] := by simpa using e
            subst this
            simp at hlen
          · have h2 := congrArg List.reverse hsplit
            rw [List.reverse_append, h, List.reverse_reverse] at h2
            rw [← h2]
            simp
  · rintro ⟨stem, hne, rfl⟩
    unfold extension
    have e' : (stem ++ c!".php").reverse = c!"php".reverse ++ '.' :: stem.reverse := by simp
    obtain ⟨t1, t2⟩ := takeWhile_ne_append '.' c!"php".reverse stem.reverse (by decide)
    have hl : (stem ++ c!".php") ≠ c!".." := by
      intro h
      have := congrArg List.length h
      simp at this
    rw [if_neg hl]
    dsimp only
    rw [e', t1, t2]
    have : 0 < stem.length := List.length_pos_iff.mpr hne
    have hlen : ¬ ('.' :: stem.reverse).reverse.length ≤ 1 := by simp; omega
    rw [if_neg hlen]
    rfl

theorem any_endsWith (ignore : List Path) (p : Path) : ignore.any (endsWith p) = true ↔ Ignored ignore p := by
  unfold Ignored endsWith
  rw [List.any_eq_true]
  constructor
  · rintro ⟨s, hs, h⟩
    rw [List.isSuffixOf_iff_suffix] at h
    obtain ⟨t, ht⟩ := h
    exact ⟨s, hs, t, ht.symm⟩
  · rintro ⟨s, hs, t, ht⟩
    refine ⟨s, hs, ?_⟩
    rw [List.isSuffixOf_iff_suffix]
    exact ⟨t, ht.symm⟩

theorem Below.mono {dir : Path} {es es' : List Entry} {f : Path} {steps : List Path} (h : Below dir es f steps)
    (hs : ∀ e ∈ es, e ∈ es') : Below dir es' f steps := by
  cases h with
  | file h => exact .file (hs _ h)
  | dir h1 h2 => exact .dir (hs _ h1) h2

/-- The last component of a path found below a folder is the name of a file. -/
theorem Below.last {dir : Path} {es : List Entry} {f : Path} {steps : List Path} (h : Below dir es f steps) :
    ∃ n front, f = front ++ [n] ∧ f ∈ steps := by
  induction h with
  | file h => exact ⟨_, _, rfl, List.mem_cons_self ..⟩
  | dir _ _ ih =>
    obtain ⟨n, front, h1, h2⟩ := ih
    exact ⟨n, front, h1, List.mem_cons_of_mem _ h2⟩

/-- What the specification asks for. -/
def Wanted (dir : Path) (ignore : List Path) (es : List Entry) (f : Path) : Prop :=
  ∃ steps n front, Below dir es f steps ∧ f = front ++ [n] ∧ PhpName n ∧ ∀ p ∈ steps, ¬ Ignored ignore p

theorem Wanted.mono {dir : Path} {ignore : List Path} {es es' : List Entry} {f : Path} (h : Wanted dir ignore es f)
    (hs : ∀ e ∈ es, e ∈ es') : Wanted dir ignore es' f := by
  obtain ⟨steps, n, front, h1, h2⟩ := h
  exact ⟨steps, n, front, h1.mono hs, h2⟩

/-- **C51, soundness.**  Whatever is listed is a PHP file below the folder with nothing ignored on the way, whether or not
the listing fails somewhere. -/
theorem C51_nothing_else (dir : Path) (ignore : List Path) (es : List Entry) (f : Path)
    (h : f ∈ reindex dir ignore es) : Wanted dir ignore es f := by
  fun_induction reindex dir ignore es with
  | case1 => cases h
  | case2 => cases h
  | case3 dir name entries path hi ih => exact (ih h).mono fun e he => List.mem_cons_of_mem _ he
  | case4 dir name entries path hi hx ih =>
    rcases List.mem_cons.mp h with rfl | h
    · refine ⟨[path], name, dir, .file (List.mem_cons_self ..), rfl, (extension_php _).mp hx, ?_⟩
      intro p hp
      rw [List.mem_singleton] at hp
      subst hp
      rw [← any_endsWith]
      exact hi
    · exact (ih h).mono fun e he => List.mem_cons_of_mem _ he
  | case5 dir name entries path hi hx ih => exact (ih h).mono fun e he => List.mem_cons_of_mem _ he
  | case6 dir name inner entries path hi ih => exact (ih h).mono fun e he => List.mem_cons_of_mem _ he
  | case7 dir name inner entries path hi ih1 ih2 =>
    rcases List.mem_append.mp h with h | h
    · obtain ⟨steps, n, front, h1, h2, h3, h4⟩ := ih1 h
      refine ⟨path :: steps, n, front, .dir (List.mem_cons_self ..) h1, h2, h3, ?_⟩
      intro p hp
      rcases List.mem_cons.mp hp with rfl | hp
      · rw [← any_endsWith]; exact hi
      · exact h4 p hp
    · exact (ih2 h).mono fun e he => List.mem_cons_of_mem _ he

/-- **C51, completeness.**  If the listing does not fail, every PHP file below the folder with nothing ignored on the way
is listed. -/
theorem C51_everything (dir : Path) (ignore : List Path) (es : List Entry) (hs : Sound es) (f : Path)
    (h : Wanted dir ignore es f) : f ∈ reindex dir ignore es := by
  induction hs generalizing dir with
  | nil =>
    obtain ⟨_, _, _, hb, _⟩ := h
    cases hb with
    | file h => cases h
    | dir h _ => cases h
  | @file n es hs ih =>
    obtain ⟨steps, m, front, hb, hf, hn, hi⟩ := h
    have hrest : Wanted dir ignore es f → f ∈ reindex dir ignore (.file n :: es) := by
      intro hw
      have := ih dir hw
      unfold reindex
      dsimp only
      split
      · exact this
      · split
        · exact List.mem_cons_of_mem _ this
        · exact this
    cases hb with
    | @file _ _ k hk =>
      rcases List.mem_cons.mp hk with hk | hk
      · injection hk with hk
        subst hk
        have hm : m = k := by simpa using (List.append_inj_right' hf rfl).symm
        subst hm
        unfold reindex
        dsimp only
        have h1 : ¬ ignore.any (endsWith (dir ++ [m])) = true := by
          rw [any_endsWith]; exact hi _ (List.mem_cons_self ..)
        rw [if_neg h1, if_pos ((extension_php m).mpr hn)]
        exact List.mem_cons_self ..
      · exact hrest ⟨_, m, front, .file hk, hf, hn, hi⟩
    | dir hd hb =>
      rcases List.mem_cons.mp hd with hd | hd
      · cases hd
      · exact hrest ⟨_, m, front, .dir hd hb, hf, hn, hi⟩
  | @dir n inner es hs1 hs2 ih1 ih2 =>
    obtain ⟨steps, m, front, hb, hf, hn, hi⟩ := h
    have hrest : Wanted dir ignore es f → f ∈ reindex dir ignore (.dir n inner :: es) := by
      intro hw
      have := ih2 dir hw
      unfold reindex
      dsimp only
      split
      · exact this
      · exact List.mem_append_right _ this
    cases hb with
    | file hk =>
      rcases List.mem_cons.mp hk with hk | hk
      · cases hk
      · exact hrest ⟨_, m, front, .file hk, hf, hn, hi⟩
    | @dir _ _ inner' k _ steps' hd hb =>
      rcases List.mem_cons.mp hd with hd | hd
      · injection hd with hd1 hd2
        subst hd1 hd2
        unfold reindex
        dsimp only
        have h1 : ¬ ignore.any (endsWith (dir ++ [k])) = true := by
          rw [any_endsWith]; exact hi _ (List.mem_cons_self ..)
        rw [if_neg h1]
        exact List.mem_append_left _
          (ih1 (dir ++ [k]) ⟨steps', m, front, hb, hf, hn, fun p hp => hi p (List.mem_cons_of_mem _ hp)⟩)
      · exact hrest ⟨_, m, front, .dir hd hb, hf, hn, hi⟩

/-- Everything listed lies below one of the entries. -/
theorem reindex_prefix (dir : Path) (ignore : List Path) (es : List Entry) (f : Path) (h : f ∈ reindex dir ignore es) :
    ∃ e ∈ es, ∃ n rest, e.name? = some n ∧ f = dir ++ n :: rest := by
  have key : ∀ {dir : Path} {es : List Entry} {f : Path} {steps : List Path}, Below dir es f steps →
      ∃ e ∈ es, ∃ n rest, e.name? = some n ∧ f = dir ++ n :: rest := by
    intro dir es f steps hb
    induction hb with
    | @file dir es n h => exact ⟨_, h, n, [], rfl, rfl⟩
    | @dir dir es inner n f steps h hb ih =>
      obtain ⟨e, he, m, rest, _, hf⟩ := ih
      exact ⟨_, h, n, m :: rest, rfl, by rw [hf]; simp⟩
  obtain ⟨steps, _, _, hb, _⟩ := C51_nothing_else dir ignore es f h
  exact key hb

/-- **C51, exactly once.**  No path is listed twice. -/
theorem C51_once (dir : Path) (ignore : List Path) (es : List Entry) (hd : Distinct es) : (reindex dir ignore es).Nodup := by
  have apart : ∀ (dir : Path) (n : Text) (es : List Entry), (∀ e ∈ es, e.name? ≠ some n) →
      ∀ rest, dir ++ n :: rest ∉ reindex dir ignore es := by
    intro dir n es hn rest hm
    obtain ⟨e, he, m, rest', h1, h2⟩ := reindex_prefix dir ignore es _ hm
    have h3 := List.append_cancel_left h2
    injection h3 with h3 _
    subst h3
    exact hn e he h1
  induction hd generalizing dir with
  | nil => simp [reindex]
  | broken _ ih => simp [reindex]
  | @file n es hn hd ih =>
    unfold reindex
    dsimp only
    split
    · exact ih dir
    · split
      · exact List.nodup_cons.mpr ⟨apart dir n es hn [], ih dir⟩
      · exact ih dir
  | @dir n inner es hn hd1 hd2 ih1 ih2 =>
    unfold reindex
    dsimp only
    split
    · exact ih2 dir
    · rw [List.nodup_append]
      refine ⟨ih1 _, ih2 _, ?_⟩
      rintro a ha b hb rfl
      obtain ⟨e, he, m, rest, h1, h2⟩ := reindex_prefix _ ignore inner _ ha
      rw [List.append_assoc] at h2
      rw [h2] at hb
      exact apart dir n es hn _ hb

/-- **C51.**  If the listing does not fail, it gives each PHP file with nothing ignored on the way exactly once and nothing
else. -/
theorem C51_listing_exact (dir : Path) (ignore : List Path) (es : List Entry) (hs : Sound es) (hd : Distinct es) :
    (reindex dir ignore es).Nodup ∧ ∀ f, f ∈ reindex dir ignore es ↔ Wanted dir ignore es f :=
  ⟨C51_once dir ignore es hd, fun f => ⟨C51_nothing_else dir ignore es f, C51_everything dir ignore es hs f⟩⟩

/-- A failing entry hides whatever the folder lists behind it, and only that: the entries before it are listed as if it
were the end of the folder. -/
theorem C51_failing_entry (dir : Path) (ignore : List Path) (es rest : List Entry) (hs : Sound es) :
    reindex dir ignore (es ++ .broken :: rest) = reindex dir ignore es := by
  induction hs generalizing dir with
  | nil => simp [reindex]
  | file _ ih => simp only [List.cons_append, reindex, ih]
  | dir _ _ _ ih2 => simp only [List.cons_append, reindex, ih2]

/-- An empty ignore pattern hides everything. -/
theorem C51_empty_pattern (dir : Path) (ignore : List Path) (es : List Entry) (h : [] ∈ ignore) :
    reindex dir ignore es = [] := by
  cases e : reindex dir ignore es with
  | nil => rfl
  | cons f fs =>
    have hm : f ∈ reindex dir ignore es := by rw [e]; exact List.mem_cons_self ..
    obtain ⟨steps, n, front, h1, h2, h3, h4⟩ := C51_nothing_else dir ignore es f hm
    obtain ⟨_, _, _, h5⟩ := h1.last
    exact absurd ⟨[], h, f, (List.append_nil f).symm⟩ (h4 f h5)

/-- A small workspace: a source folder with a nested folder, an ignored folder and files of other kinds. -/
def workspace : List Entry :=
  [.file c!"index.php", .file c!"README.md", .file c!".php",
    .dir c!"src" [.file c!"A.php", .dir c!"vendor" [.file c!"B.php"], .dir c!"Sub" [.file c!"C.d.php"]],
    .dir c!"vendor" [.file c!"D.php"]]

/- The hypotheses of `C51_listing_exact` hold for it, and the result is what one expects. -/
example : Sound workspace ∧ Distinct workspace := by
  constructor
  · unfold workspace; repeat constructor
  · unfold workspace
    repeat' constructor
    all_goals decide

example : reindex [c!"/", c!"w"] [[c!"vendor"]] workspace =
    [[c!"/", c!"w", c!"index.php"], [c!"/", c!"w", c!"src", c!"A.php"],
      [c!"/", c!"w", c!"src", c!"Sub", c!"C.d.php"]] := by
  simp only [workspace, reindex]; decide

end PhpLs.Fs
