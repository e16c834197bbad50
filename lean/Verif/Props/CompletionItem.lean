import Verif.CompletionItem
import Verif.CollectorLemmas
import Verif.Props.CompletionNames

/-!
# C63: what a completion item shows and inserts
-/

namespace PhpLs

open Out
open scoped List

/-! ## Snippets, as the protocol describes them -/

/-- Where the reader of a snippet is: in plain text, in the number of a placeholder, or in its text. -/
inductive SnippetMode where
  | text
  | number (n : Nat)
  | hole
deriving DecidableEq

/-- A reader of snippets: the text that appears in the editor and the numbers of the placeholders in it.  `\` makes the characters
`$`, `}` and `\` ordinary ones; a placeholder is `${number:text}`.  Everything else that the protocol knows (variables, choices,
placeholders inside placeholders) is refused. -/
def readSnippet : SnippetMode → Text → Option (Text × List Nat)
  | .text, [] => some ([], [])
  | .text, '\\' :: c :: r =>
    if c = '$' ∨ c = '}' ∨ c = '\\' then (readSnippet .text r).map fun x => (c :: x.1, x.2) else none
  | .text, '$' :: '{' :: r => readSnippet (.number 0) r
  | .text, c :: r => if c = '$' ∨ c = '\\' then none else (readSnippet .text r).map fun x => (c :: x.1, x.2)
  | .number n, c :: r =>
    if c.isDigit then readSnippet (.number (10 * n + (c.toNat - 48))) r
    else if c = ':' then (readSnippet .hole r).map fun x => (x.1, n :: x.2)
    else none
  | .hole, '\\' :: c :: r =>
    if c = '$' ∨ c = '}' ∨ c = '\\' then (readSnippet .hole r).map fun x => (c :: x.1, x.2) else none
  | .hole, c :: r =>
    if c = '}' then readSnippet .text r
    else if c = '$' ∨ c = '\\' then none
    else (readSnippet .hole r).map fun x => (c :: x.1, x.2)
  | _, [] => none

/-- The characters that mean something in a snippet do not occur. -/
def PlainText (t : Text) : Prop := ∀ c ∈ t, c ≠ '$' ∧ c ≠ '}' ∧ c ≠ '\\'

theorem readSnippet_text {t : Text} (h : PlainText t) (r : Text) :
    readSnippet .text (t ++ r) = (readSnippet .text r).map fun x => (t ++ x.1, x.2) := by
  induction t with
  | nil => simp
  | cons c t ih =>
    have hc := h c (by simp)
    have := ih fun d hd => h d (by simp [hd])
    rw [List.cons_append, readSnippet.eq_4, if_neg (by simp [hc.1, hc.2.2]), this, Option.map_map]
    · rfl
    · rintro c' r' rfl
      exact absurd rfl hc.2.2
    · rintro r' rfl
      exact absurd rfl hc.1

theorem readSnippet_hole {t : Text} (h : PlainText t) (r : Text) :
    readSnippet .hole (t ++ '}' :: r) = (readSnippet .text r).map fun x => (t ++ x.1, x.2) := by
  induction t with
  | nil => simp [readSnippet]
  | cons c t ih =>
    have hc := h c (by simp)
    have := ih fun d hd => h d (by simp [hd])
    rw [List.cons_append, readSnippet.eq_7, if_neg hc.2.1, if_neg (by simp [hc.1, hc.2.2]), this, Option.map_map]
    · rfl
    · rintro c' r' rfl
      exact absurd rfl hc.2.2

theorem readSnippet_number (n : Nat) : ∀ (m : Nat) (r : Text), ∃ k, (m = 0 → k = n) ∧
    readSnippet (.number m) (natText n ++ r) = readSnippet (.number k) r := by
  induction n using Nat.strongRecOn with
  | ind n ih =>
    intro m r
    unfold natText
    by_cases hn : n < 10
    · rw [Nat.toDigits_of_lt_base hn]
      refine ⟨10 * m + n, by omega, ?_⟩
      rw [List.singleton_append, readSnippet.eq_5, if_pos (by simp [Nat.isDigit_digitChar, hn]),
        Nat.toNat_digitChar_sub_48_of_lt_ten hn]
    · rw [Nat.toDigits_of_base_le (by decide) (by omega), List.append_assoc]
      obtain ⟨k, hk, e⟩ := ih (n / 10) (by omega) m ([Nat.digitChar (n % 10)] ++ r)
      unfold natText at e
      rw [e]
      have hd : n % 10 < 10 := by omega
      refine ⟨10 * k + n % 10, by omega, ?_⟩
      rw [List.singleton_append, readSnippet.eq_5, if_pos (by simp [Nat.isDigit_digitChar, hd]),
        Nat.toNat_digitChar_sub_48_of_lt_ten hd]

theorem readSnippet_argument {name : Text} (h : PlainText name) (i : Nat) (r : Text) :
    readSnippet .text (snippetArgument i name ++ r) =
      (readSnippet .text r).map fun x => (('$' :: name) ++ x.1, i :: x.2) := by
  have e : snippetArgument i name ++ r = '$' :: '{' :: (natText i ++ (':' :: '\\' :: '$' :: (name ++ '}' :: r))) := by
    simp [snippetArgument]
  rw [e, readSnippet.eq_3]
  obtain ⟨k, hk, e⟩ := readSnippet_number i 0 (':' :: '\\' :: '$' :: (name ++ '}' :: r))
  rw [e, hk rfl, readSnippet.eq_5, if_neg (by decide), if_pos rfl, readSnippet.eq_6, if_pos (by simp), readSnippet_hole h,
    Option.map_map, Option.map_map]
  rfl

theorem readSnippet_arguments : ∀ (names : List Text), (∀ t ∈ names, PlainText t) → ∀ (i : Nat) (r : Text),
    readSnippet .text (joinComma (snippetArguments i names) ++ r) =
      (readSnippet .text r).map fun x => (joinComma (names.map ('$' :: ·)) ++ x.1, List.range' i names.length ++ x.2)
  | [], _, _, _ => by simp [snippetArguments, joinComma]
  | [n], h, i, r => by
    simp only [snippetArguments, joinComma, List.map_cons, List.map_nil]
    rw [readSnippet_argument (h n (by simp))]
    rfl
  | n :: m :: l, h, i, r => by
    have ih := readSnippet_arguments (m :: l) (fun t ht => h t (by simp only [List.mem_cons] at ht ⊢; exact .inr ht)) (i + 1) r
    have e : joinComma (snippetArguments i (n :: m :: l)) = snippetArgument i n ++ (c!", " ++
        joinComma (snippetArguments (i + 1) (m :: l))) := by
      simp [snippetArguments, joinComma]
    rw [e, List.append_assoc, readSnippet_argument (h n (by simp)), List.append_assoc,
      readSnippet_text (by unfold PlainText; decide), ih, Option.map_map, Option.map_map]
    congr 1
    funext x
    simp [joinComma, List.range'_succ]

theorem joinComma_eq : ∀ l : List Text, joinComma l = List.intercalate c!", " l
  | [] => rfl
  | [c] => by simp [joinComma, List.intercalate]
  | c :: d :: r => by
    have := joinComma_eq (d :: r)
    simp only [List.intercalate] at this
    simp [joinComma, List.intercalate, this]

/-! ## The items -/

namespace Symbol

/-- The item of a symbol. -/
theorem completionItem_ok {a : Arena Symbol} {n : NodeId} {s : Symbol} {i : ShownItem} (h : s.completionItem a n = some i) :
    i.label = s.plainName ∧ i.edits = [] ∧ (i.deprecated = true ↔ s.deprecated = some true) ∧
    (i.kind = some .method ↔ s.kind = .method) ∧ (i.kind = some .function ↔ s.kind = .function) ∧
    (i.snippet = true ↔ i.insertText.isSome) ∧
    (i.insertText.isSome ↔ s.kind = .method ∨ s.kind = .function) ∧
    ∀ t, i.insertText = some t → ∃ cs, a.children? n = some cs ∧
      t = s.name ++ c!"(" ++ joinComma (snippetArguments 1 (cs.map (·.2.plainName))) ++ c!")" := by
  unfold completionItem at h
  cases hk : s.kind <;> simp only [hk] at h
  case method | function =>
    simp only [parametersAsSnippets, parameterNames, Option.pure_def, Option.bind_eq_bind] at h
    cases hc : a.children? n with
    | none => simp [hc] at h
    | some cs =>
      simp only [hc, Option.bind_some, Option.some.injEq] at h
      subst h
      simp [ShownItem.plain]
  all_goals
    simp only [Option.some.injEq] at h
    subst h
    simp [ShownItem.plain]

end Symbol

namespace Backend

/-- What the items have in common with those of `Backend.completion`. -/
def brief (i : ShownItem) : CompletionItem := ⟨i.label, i.edits⟩

theorem completionItem_live {a : Arena Symbol} {n : NodeId} {s : Symbol} (h : a.get? n = some s) :
    ∃ i, s.completionItem a n = some i := by
  have hc : ∃ cs, a.children? n = some cs := by
    unfold Arena.get? at h
    unfold Arena.children?
    cases hn : a.forest.node? n.idx with
    | none => simp [hn] at h
    | some x => exact ⟨_, rfl⟩
  obtain ⟨cs, hc⟩ := hc
  unfold Symbol.completionItem
  cases s.kind <;> simp [Symbol.parametersAsSnippets, Symbol.parameterNames, hc]

/-- The labels and the additional edits of the items are those of `Backend.completionItem`. -/
theorem shownItem_brief (a : Arena Symbol) (file : Symbol) (sug : Suggestion) :
    completionItem a file sug = (shownItem a file sug >>= fun i => .ok (brief i)) := by
  unfold shownItem completionItem
  by_cases h1 : sug.isThis = true
  · rw [if_pos h1, if_pos h1]
    rfl
  · rw [if_neg h1, if_neg h1]
    cases ht : sug.token with
    | some t =>
      simp only
      cases t.display <;> rfl
    | none =>
      simp only
      cases sug.node with
      | none => rfl
      | some sn =>
        simp only [Out.ofOption_some, Out.bind_ok]
        cases hs : a.get? sn with
        | none => rfl
        | some s =>
          obtain ⟨i, hi⟩ := completionItem_live hs
          have hl := Symbol.completionItem_ok hi
          simp only [Out.ofOption_some, Out.bind_ok, hi]
          split
          · split
            · cases sug.replace <;> rfl
            · split
              · simp [brief, hl.1, hl.2.1, Out.bind_ok]
              · split
                · simp [brief, hl.1, hl.2.1, Out.bind_ok]
                · cases hm : importLine s.fqdn file with
                  | ok l =>
                    cases l <;> simp [brief, hl.1, hl.2.1, Out.bind_ok, pure]
                  | panic => rfl
                  | deep => rfl
          · simp [brief, hl.1, hl.2.1, Out.bind_ok, pure]

theorem fold_brief (a : Arena Symbol) (file : Symbol) : ∀ (l : List Suggestion) (acc : List ShownItem),
    l.foldlM (init := acc.map brief) (fun acc sug => (completionItem a file sug >>= fun i => (pure (acc ++ [i]) : Out _))) =
      (l.foldlM (init := acc) (fun acc sug => (shownItem a file sug >>= fun i => (pure (acc ++ [i]) : Out _))) >>=
        fun x => .ok (x.map brief))
  | [], acc => rfl
  | sug :: l, acc => by
    simp only [List.foldlM_cons]
    rw [shownItem_brief]
    cases shownItem a file sug with
    | ok i =>
      have := fold_brief a file l (acc ++ [i])
      simpa using this
    | panic => rfl
    | deep => rfl

/-- C63, labels.  The labels and the additional edits of the items are the ones that C47, C58, C59 and C61 are about; showing the
other fields never fails. -/
theorem C63_labels (h : Host) (st : Backend) (trigger : Option Char) (position : Pos) (path : Text) :
    st.completion h trigger position path =
      (st.completionShown h trigger position path >>= fun x => .ok (x.map (·.map brief))) := by
  unfold completion completionShown
  cases Dict.get? st.opened path with
  | none => rfl
  | some o =>
    cases Dict.get? st.files path with
    | none => rfl
    | some file =>
      simp only
      cases st.arena.get? file with
      | none => rfl
      | some fs =>
        simp only [Out.ofOption_some, Out.bind_ok]
        cases symbolAt position file st.arena with
        | none => rfl
        | some cursor =>
          simp only [Out.ofOption_some, Out.bind_ok]
          cases Dict.get? st.references path with
          | none => rfl
          | some refs =>
            simp only
            cases Suggester.suggestionsAt h trigger position cursor o.1 st.arena st.globals refs with
            | ok l =>
              simp only [Out.bind_ok]
              have := fold_brief st.arena fs l []
              simp only [List.map_nil] at this
              rw [this, bind_assoc, bind_assoc]
              rfl
            | panic => rfl
            | deep => rfl

/-- What an item may be. -/
inductive Shows (a : Arena Symbol) : ShownItem → Prop
  /-- `$this`. -/
  | this : Shows a ⟨c!"$this", [], none, none, false, none, false⟩
  /-- A keyword: the word and its kind. -/
  | keyword (w : Text) : Shows a ⟨w, [], none, some .keyword, false, none, false⟩
  /-- A symbol that exists. -/
  | symbol (i : ShownItem) (n : NodeId) (s : Symbol) (h : a.get? n = some s)
      (dep : i.deprecated = true ↔ s.deprecated = some true)
      (method : i.kind = some .method ↔ s.kind = .method) (function : i.kind = some .function ↔ s.kind = .function)
      (cls : i.kind = some .cls ↔ s.kind = .cls ∨ s.kind = .trait) (interface : i.kind = some .interface ↔ s.kind = .interface)
      (constant : i.kind = some .constant ↔ s.kind = .constant ∨ s.kind = .magicConst)
      (insert : i.insertText.isSome = true ↔ s.kind = .method ∨ s.kind = .function)
      (snippet : i.snippet = i.insertText.isSome)
      (detail : ∀ k d, (k, d) ∈ [(SymbolKind.interface, c!"interface " ++ s.namespace.getD [] ++ c!"\\" ++ s.name),
          (.cls, c!"class " ++ s.namespace.getD [] ++ c!"\\" ++ s.name), (.trait, c!"trait " ++ s.namespace.getD [] ++ c!"\\" ++ s.name),
          (.constant, s.visibility.text ++ c!" " ++ s.name ++ c!"()"), (.method, s.visibility.text ++ c!" " ++ s.name ++ c!"()"),
          (.function, s.name ++ c!"()")] → s.kind = k → i.detail = some d)
      (text : ∀ t, i.insertText = some t → ∃ cs, a.children? n = some cs ∧
        (PlainText s.name → (∀ c ∈ cs, PlainText c.2.plainName) → readSnippet .text t =
          some (s.name ++ c!"(" ++ List.intercalate c!", " (cs.map fun c => '$' :: c.2.plainName) ++ c!")",
            List.range' 1 cs.length))) : Shows a i

theorem shows_completionItem {a : Arena Symbol} {n : NodeId} {s : Symbol} (hs : a.get? n = some s) {i : ShownItem}
    (h : s.completionItem a n = some i) (label : Text) (edits : List (LspRange × Text)) :
    Shows a { i with label := label, edits := edits } := by
  obtain ⟨_, _, h3, h4, h5, h6, h7, h8⟩ := Symbol.completionItem_ok h
  have hk : (i.kind = some .cls ↔ s.kind = .cls ∨ s.kind = .trait) ∧ (i.kind = some .interface ↔ s.kind = .interface) ∧
      (i.kind = some .constant ↔ s.kind = .constant ∨ s.kind = .magicConst) := by
    unfold Symbol.completionItem at h
    cases hk : s.kind <;> simp only [hk] at h
    case method | function =>
      obtain ⟨x, _, h⟩ := Option.bind_eq_some_iff.1 h
      injection h with h
      subst h
      simp
    all_goals
      injection h with h
      subst h
      simp [ShownItem.plain]
  refine .symbol _ n s hs h3 h4 h5 hk.1 hk.2.1 hk.2.2 h7 ?_ ?_ fun t ht => ?_
  rotate_left
  · intro k d hkd hsk
    simp only [List.mem_cons, Prod.mk.injEq, List.not_mem_nil, or_false] at hkd
    unfold Symbol.completionItem at h
    rcases hkd with ⟨rfl, rfl⟩ | ⟨rfl, rfl⟩ | ⟨rfl, rfl⟩ | ⟨rfl, rfl⟩ | ⟨rfl, rfl⟩ | ⟨rfl, rfl⟩ <;> simp only [hsk] at h
    case inr.inr.inr.inr.inl | inr.inr.inr.inr.inr =>
      obtain ⟨x, _, h⟩ := Option.bind_eq_some_iff.1 h
      injection h with h
      subst h
      rfl
    all_goals
      injection h with h
      subst h
      rfl
  rotate_left
  · simp only
    rcases hb : i.snippet with _ | _ <;> rcases hc : i.insertText with _ | _ <;> simp [hb, hc] at h6 ⊢
  · obtain ⟨cs, hcs, rfl⟩ := h8 t ht
    refine ⟨cs, hcs, fun hn hc => ?_⟩
    rw [List.append_assoc, List.append_assoc, readSnippet_text hn, readSnippet_text (by unfold PlainText; decide),
      readSnippet_arguments _ (by
        intro t ht
        obtain ⟨c, hc', rfl⟩ := List.mem_map.1 ht
        exact hc c hc')]
    rw [show c!")" = c!")" ++ [] from rfl, readSnippet_text (by unfold PlainText; decide), readSnippet.eq_1]
    simp [joinComma_eq, Function.comp_def]

theorem shows_shownItem (a : Arena Symbol) (file : Symbol) (sug : Suggestion) :
    OkThat (Shows a) (shownItem a file sug) := by
  unfold shownItem
  split
  · exact OkThat.ok .this
  · split
    · exact OkThat.bindOption fun l _ => OkThat.ok (.keyword l)
    · refine OkThat.bindOption fun sn _ => OkThat.bindOption fun s hs => ?_
      have only : OkThat (Shows a) (Out.ofOption (s.completionItem a sn)) := fun i hi =>
        shows_completionItem hs (Out.ofOption_ok hi) i.label i.edits
      split
      · split
        · refine OkThat.bindOption fun r _ => OkThat.bindOption fun i hi => OkThat.ok ?_
          exact shows_completionItem hs hi _ _
        · split
          · exact only
          · split
            · exact only
            · refine OkThat.bind (OkThat.any _) fun l _ => ?_
              split
              · exact only
              · refine OkThat.bindOption fun i hi => OkThat.ok ?_
                exact shows_completionItem hs hi i.label _
      · refine OkThat.bindOption fun i hi => OkThat.ok ?_
        exact shows_completionItem hs hi _ i.edits

/-- C63, items.  Every item of an answer is `$this`, a keyword or shows a symbol that exists: its kind is that of the symbol, it is
marked as deprecated exactly if the symbol is, and exactly functions and methods come with a text to insert.  That text is a
snippet; what appears in the editor is the name and, in parentheses, the names of all symbols directly below the function, with the
placeholders 1, 2, … on them. -/
theorem C63_items (h : Host) (st : Backend) (trigger : Option Char) (position : Pos) (path : Text) :
    OkThat (fun x => ∀ l, x = some l → ∀ i ∈ l, Shows st.arena i) (st.completionShown h trigger position path) := by
  unfold completionShown
  split
  · exact OkThat.ok fun _ e => nomatch e
  · split
    · exact OkThat.ok fun _ e => nomatch e
    · refine OkThat.bindOption fun fs _ => OkThat.bindOption fun cursor _ => ?_
      split
      · exact OkThat.ok fun _ e => nomatch e
      · refine OkThat.bind (OkThat.any _) fun l _ => ?_
        refine OkThat.bind (OkThat.foldlM (P := fun l : List ShownItem => ∀ i ∈ l, Shows st.arena i) ?_ l [] ?_) fun l hl => ?_
        · intro acc sug hacc
          refine (shows_shownItem st.arena fs sug).bind fun i hi => OkThat.ok ?_
          intro j hj
          rcases List.mem_append.1 hj with hj | hj
          · exact hacc j hj
          · rw [List.mem_singleton.1 hj]
            exact hi
        · intro i hi
          cases hi
        · refine OkThat.ok fun l' e => ?_
          injection e with e
          subst e
          exact hl

end Backend

/-! ## The symbols below a function, after the file was read -/

/-- What is seen of a child. -/
def childKey (c : NodeId × Symbol) : NodeId × SymbolKind × Text := (c.1, c.2.kind, c.2.name)

namespace Forest

theorem node?_update_same (m : Nat) (u : Symbol → Forest Symbol → Symbol × Forest Symbol) : ∀ f : Forest Symbol,
    (f.update m u).node? m = (f.node? m).map fun x => (x.1, u x.2.1 x.2.2)
  | .nil => rfl
  | .cons i v k r => by
    unfold update
    by_cases h : i.idx = m
    · simp [h, node?]
    · have hk := node?_update_same m u k
      have hr := node?_update_same m u r
      simp only [h, if_false, node?, hk, hr]
      cases k.node? m <;> simp

theorem keys_update (m : Nat) {u : Symbol → Forest Symbol → Symbol × Forest Symbol}
    (hu : ∀ v k, (u v k).1.kind = v.kind ∧ (u v k).1.name = v.name) : ∀ f : Forest Symbol,
    (f.update m u).tops.map childKey = f.tops.map childKey
  | .nil => rfl
  | .cons i v k r => by
    unfold update
    by_cases h : i.idx = m
    · simp [h, tops, childKey, hu]
    · simp [h, tops, keys_update m hu r]

theorem node?_update {n m : Nat} {u : Symbol → Forest Symbol → Symbol × Forest Symbol}
    (hu : ∀ v k, (u v k).1.kind = v.kind ∧ (u v k).1.name = v.name)
    (hp : ∀ v k, k.tops.map childKey <+: (u v k).2.tops.map childKey) (hn : ∀ v k, (u v k).2.node? n = k.node? n) :
    ∀ f : Forest Symbol, (∀ i v k, f.node? n = some (i, v, k) → ∃ v' k', (f.update m u).node? n = some (i, v', k') ∧
      k.tops.map childKey <+: k'.tops.map childKey) ∧ (f.node? n = none → (f.update m u).node? n = none)
  | .nil => ⟨(fun _ _ _ h => nomatch h), fun _ => rfl⟩
  | .cons i v k r => by
    have ihk := node?_update hu hp hn (m := m) k
    have ihr := node?_update hu hp hn (m := m) r
    unfold update
    by_cases hm : i.idx = m
    · simp only [hm, if_true, node?, hn]
      by_cases e : m = n
      · simp only [e, if_true]
        refine ⟨fun j w l h => ?_, fun h => nomatch h⟩
        injection h with h
        injection h with h1 h2
        injection h2 with h2 h3
        subst h1 h2 h3
        exact ⟨_, _, rfl, hp _ _⟩
      · simp only [e, if_false]
        exact ⟨fun j w l h => ⟨w, l, h, List.prefix_refl _⟩, fun h => h⟩
    · simp only [hm, if_false, node?]
      by_cases e : i.idx = n
      · simp only [e, if_true]
        refine ⟨fun j w l h => ?_, fun h => nomatch h⟩
        injection h with h
        injection h with h1 h2
        injection h2 with h2 h3
        subst h1 h2 h3
        exact ⟨_, _, rfl, by rw [keys_update m hu]; exact List.prefix_refl _⟩
      · simp only [e, if_false]
        cases hk : k.node? n with
        | some x =>
          refine ⟨fun j w l h => ?_, fun h => nomatch h⟩
          injection h with h
          subst h
          obtain ⟨v', k', h1, h2⟩ := ihk.1 _ _ _ hk
          exact ⟨v', k', by rw [h1], h2⟩
        | none =>
          rw [ihk.2 hk]
          exact ihr

theorem node?_snoc {n : Nat} {i : NodeId} (h : i.idx ≠ n) (v : Symbol) (f : Forest Symbol) :
    (f.snoc i v .nil).node? n = f.node? n := by
  unfold snoc
  induction f with
  | nil => simp [append, node?, h]
  | cons j w k' r _ ih => simp [append, node?, ih]

end Forest

/-- What exists keeps the symbols that are below it, in their order; new ones come behind them. -/
def Longer (a a' : Arena Symbol) : Prop :=
  a.Ok → a'.Ok ∧ ∀ n l, a.children? n = some l → ∃ l', a'.children? n = some l' ∧ l.map childKey <+: l'.map childKey

namespace Longer

theorem refl (a : Arena Symbol) : Longer a a := fun h => ⟨h, fun _ l hl => ⟨l, hl, List.prefix_refl _⟩⟩

theorem trans {a b c : Arena Symbol} (h : Longer a b) (h' : Longer b c) : Longer a c := fun ha => by
  obtain ⟨hb, h1⟩ := h ha
  obtain ⟨hc, h2⟩ := h' hb
  refine ⟨hc, fun n l hl => ?_⟩
  obtain ⟨l', e, p⟩ := h1 n l hl
  obtain ⟨l2, e2, p2⟩ := h2 n l' e
  exact ⟨l2, e2, p.trans p2⟩

theorem modify (a : Arena Symbol) (i : NodeId) {f : Symbol → Symbol} (hf : ∀ v, Symbol.Same v (f v)) :
    Longer a (a.modify i f) := fun ha => by
  refine ⟨Arena.ok_modify ha i f, fun n l hl => ?_⟩
  unfold Arena.children? at hl ⊢
  obtain ⟨⟨j, v, k⟩, hn, rfl⟩ := Option.map_eq_some_iff.1 hl
  obtain ⟨v', k', e, p⟩ := (Forest.node?_update (m := i.idx) (n := n.idx) (u := fun v k => (f v, k))
    (fun v k => ⟨(hf v).kind, (hf v).name⟩) (fun _ _ => List.prefix_refl _) (fun _ _ => rfl) a.forest).1 _ _ _ hn
  exact ⟨_, by rw [Arena.modify]; simp only [e]; rfl, p⟩

theorem addChild {a : Arena Symbol} {p : NodeId} {w : Symbol} (hp : a.get? p = some w) (v : Symbol) :
    Longer a (a.addChild p v).2 ∧ (a.Ok → ∀ l, a.children? p = some l →
      (a.addChild p v).2.children? p = some (l ++ [(a.fresh, v)])) := by
  have hpi : p.idx ∈ a.forest.idxs := by
    unfold Arena.get? at hp
    apply Classical.byContradiction
    intro hn
    rw [Forest.node?_none.2 hn] at hp
    cases hp
  refine ⟨fun ha => ⟨Arena.ok_addChild ha hpi v, fun n l hl => ?_⟩, fun ha l hl => ?_⟩
  · unfold Arena.children? at hl ⊢
    obtain ⟨⟨j, u, k⟩, hn, rfl⟩ := Option.map_eq_some_iff.1 hl
    have hne : a.fresh.idx ≠ n.idx := by
      intro e
      rw [← e, Forest.node?_none.2 (Arena.fresh_notMem ha)] at hn
      cases hn
    obtain ⟨v', k', e, q⟩ := (Forest.node?_update (m := p.idx) (n := n.idx) (u := fun w k => (w, k.snoc a.fresh v .nil))
      (fun v k => ⟨rfl, rfl⟩) (fun _ _ => by rw [Forest.tops_snoc, List.map_append]; exact List.prefix_append _ _)
      (fun _ _ => Forest.node?_snoc hne v _) a.forest).1 _ _ _ hn
    exact ⟨_, by simp only [Arena.addChild, Arena.took_forest, e]; rfl, q⟩
  · unfold Arena.children? at hl ⊢
    obtain ⟨⟨j, u, k⟩, hn, rfl⟩ := Option.map_eq_some_iff.1 hl
    simp only [Arena.addChild, Arena.took_forest, Forest.node?_update_same, hn, Option.map_some, Forest.tops_snoc]

end Longer

namespace Collector

variable {p : NodeId}

theorem longer_add (s : Collector) (v : Symbol) : OkThat (fun q : NodeId × Collector => Longer s.arena q.2.arena) (s.add p v) := by
  unfold add
  exact OkThat.bindOption fun _ h => OkThat.ok (Longer.addChild h v).1

theorem longer_change (s : Collector) (i : NodeId) {f : Symbol → Symbol} (hf : ∀ v, Symbol.Same v (f v)) :
    OkThat (fun q : Collector => Longer s.arena q.arena) (s.change i f) := by
  unfold change
  exact OkThat.bindOption fun _ _ => OkThat.ok (Longer.modify _ i hf)

/-- Each step of the walk only adds symbols behind those that are there. -/
abbrev Adds (s : Collector) (q : NextAction × Collector) : Prop := Longer s.arena q.2.arena

/-- Values that are read first. -/
macro "reads" : tactic => `(tactic| repeat (refine OkThat.bindOption fun _ _ => ?_))

theorem longer_visitUse (node : Node) (s : Collector) : OkThat (Adds s) (visitUse node p s) := by
  unfold visitUse
  refine OkThat.bindOption fun up _ => OkThat.bindOption fun is _ => ?_
  exact (longer_change s _ fun v => same_addImports v is).bind fun _ h => OkThat.ok h

theorem longer_visitUseTrait (node : Node) (s : Collector) : OkThat (Adds s) (visitUseTrait node p s) := by
  unfold visitUseTrait
  refine OkThat.bindOption fun is _ => OkThat.bindOption fun rs _ => ?_
  exact (longer_change s _ fun v => (same_addImports v is).trans (same_addRules _ rs)).bind fun _ h => OkThat.ok h

theorem longer_addConsts (node : Node) (doc : Option Node) : ∀ (l : List Node) (s : Collector),
    OkThat (fun s' : Collector => Longer s.arena s'.arena) (addConsts node doc p l s)
  | [], s => OkThat.ok (.refl _)
  | n :: rest, s => by
    unfold addConsts
    split
    · next e => cases e
    · next e =>
      cases e
      reads
      refine (longer_add _ _).bind fun c hc => ?_
      exact (longer_addConsts node doc rest c.2).mono fun _ h' => hc.trans h'
    · next e =>
      cases e
      exact longer_addConsts node doc rest _

theorem longer_addProperties (range : NodeRange) (ts : List SymRef) (visibility : Option Token) (dep : Option Bool) :
    ∀ (l : List Node) (s : Collector),
    OkThat (fun s' : Collector => Longer s.arena s'.arena) (addProperties range ts visibility dep p l s)
  | [], s => OkThat.ok (.refl _)
  | n :: rest, s => by
    unfold addProperties
    split
    · next e => cases e
    · next e =>
      cases e
      reads
      refine (longer_add _ _).bind fun c hc => ?_
      exact (longer_addProperties range ts visibility dep rest c.2).mono fun _ h' => hc.trans h'
    · next e =>
      cases e
      exact longer_addProperties range ts visibility dep rest _

theorem longer_visit (node : Node) (s : Collector) : OkThat (Adds s) (visit node p s) := by
  have one : ∀ (v : Symbol) (f : NodeId → NextAction), OkThat (Adds s) (do let c ← s.add p v; pure (f c.1, c.2)) :=
    fun v f => (longer_add s v).bind fun c hc => OkThat.ok hc
  unfold visit
  split
  · exact longer_visitUse _ s
  · exact longer_visitUse _ s
  · exact longer_visitUse _ s
  · exact longer_visitUse _ s
  · exact longer_visitUseTrait _ s
  · exact longer_visitUseTrait _ s
  · exact longer_visitUseTrait _ s
  · exact longer_visitUseTrait _ s
  · unfold visitNamespace
    split
    · reads
      exact one _ _
    · exact OkThat.panic
  · reads
    exact one _ fun _ => .abort
  · unfold visitClass
    reads
    refine (longer_add s _).bind fun c hc => ?_
    exact (longer_add c.2 _).bind fun m hm => OkThat.ok (hc.trans hm)
  · unfold visitTrait
    reads
    exact one _ _
  · unfold visitInterface
    reads
    exact one _ _
  · exact (longer_addConsts _ _ _ s).bind fun c hc => OkThat.ok hc
  · reads
    exact one _ fun _ => .abort
  · reads
    exact (longer_addProperties _ _ _ _ _ s).bind fun c hc => OkThat.ok hc
  · unfold visitMethod
    split
    · reads
      exact one _ _
    · exact OkThat.ok (.refl _)
  · reads
    exact one _ _
  · unfold visitFunction
    split
    · reads
      exact one _ _
    · exact OkThat.ok (.refl _)
  · unfold visitArgument
    reads
    refine (longer_add s _).bind fun c hc => ?_
    refine (longer_change c.2 p (f := fun v => { v with parameters := v.parameters ++ [⟨c.1⟩] }) fun v =>
      ⟨rfl, rfl, rfl, rfl, rfl⟩).bind fun s' h' => OkThat.ok (hc.trans h')
  · reads
    exact one _ fun _ => .abort
  · exact OkThat.ok (.refl _)
  · exact OkThat.ok (.refl _)

/-- The walk over a tree. -/
theorem longer_traverse : ∀ (fuel : Nat) (node : Node) (p : NodeId) (s : Collector),
    OkThat (fun s' : Collector => Longer s.arena s'.arena) (traverse Node.children visitor fuel node p s)
  | 0, _, _, _ => OkThat.deep
  | fuel + 1, node, p, s => by
    unfold traverse
    refine OkThat.bind (before_arena (p := p) node s) fun s1 e1 => ?_
    refine OkThat.bind (longer_visit (p := p) node s1) fun q hq => ?_
    refine OkThat.bind (Q := fun s3 : Collector => Longer s1.arena s3.arena) ?_ fun s3 h3 => ?_
    · split
      · exact OkThat.ok hq
      · next c e =>
        exact OkThat.foldlM (P := fun s' : Collector => Longer s1.arena s'.arena)
          (fun s' n h => (longer_traverse fuel n c s').mono fun _ h' => h.trans h') _ _ hq
    · refine OkThat.mono (after_arena (p := p) node s3) fun s4 e4 => ?_
      rw [e4, ← e1]
      exact h3

/-- The name of a parameter, as it is written. -/
def argumentName : Node → Option Text
  | .functionArgument _ name _ _ _ _ _ _ => name.display
  | _ => none

/-- The kinds and the names of the symbols below a symbol. -/
def Below (a : Arena Symbol) (c : NodeId) (l : List (SymbolKind × Text)) : Prop :=
  ∃ cs, a.children? c = some cs ∧ cs.map (fun x => (x.2.kind, x.2.name)) = l

theorem keys_eq {l l' : List (NodeId × Symbol)} (h : l.map childKey = l'.map childKey) :
    l.map (fun x => (x.2.kind, x.2.name)) = l'.map (fun x => (x.2.kind, x.2.name)) := by
  have := congrArg (List.map fun x : NodeId × SymbolKind × Text => x.2) h
  simpa [childKey, Function.comp_def] using this

theorem _root_.PhpLs.Longer.below {a a' : Arena Symbol} (h : Longer a a') (ha : a.Ok) {c : NodeId} {l : List (SymbolKind × Text)}
    (hb : Below a c l) : a'.Ok ∧ ∃ more, Below a' c (l ++ more) := by
  obtain ⟨ha', h'⟩ := h ha
  obtain ⟨cs, hc, rfl⟩ := hb
  obtain ⟨cs', hc', t, ht⟩ := h' c cs hc
  refine ⟨ha', t.map (fun x => x.2), cs', hc', ?_⟩
  have := congrArg (List.map fun x : NodeId × SymbolKind × Text => x.2) ht
  simp only [List.map_append, List.map_map] at this
  exact this.symm

/-- A change of a symbol keeps what is below another one. -/
theorem below_change {s : Collector} (ha : s.arena.Ok) {c i : NodeId} {l : List (SymbolKind × Text)} (hb : Below s.arena c l)
    {f : Symbol → Symbol} (hf : ∀ v, Symbol.Same v (f v)) :
    OkThat (fun s' : Collector => s'.arena.Ok ∧ Below s'.arena c l) (s.change i f) := by
  unfold change
  refine OkThat.bindOption fun _ _ => OkThat.ok ⟨Arena.ok_modify ha i f, ?_⟩
  obtain ⟨cs, hc, rfl⟩ := hb
  obtain ⟨cs', hc', t, ht⟩ := (Longer.modify s.arena i hf ha).2 c cs hc
  refine ⟨cs', hc', (keys_eq ?_).symm⟩
  have hlen : cs'.length = cs.length := by
    unfold Arena.children? at hc hc'
    obtain ⟨x, hx, rfl⟩ := Option.map_eq_some_iff.1 hc
    obtain ⟨y, hy, rfl⟩ := Option.map_eq_some_iff.1 hc'
    have hup : ∀ (m : Nat) (g : Forest Symbol), (g.update m fun v k => (f v, k)).tops.length = g.tops.length := by
      intro m g
      induction g with
      | nil => rfl
      | cons j w k r _ ih =>
        unfold Forest.update
        split <;> simp [Forest.tops, ih]
    have hnode : ∀ (n m : Nat) (g : Forest Symbol), ((g.update m fun v k => (f v, k)).node? n).map (·.2.2.tops.length) =
        (g.node? n).map (·.2.2.tops.length) := by
      intro n m g
      induction g with
      | nil => rfl
      | cons j w k r ihk ihr =>
        unfold Forest.update
        split
        · simp only [Forest.node?]
          split <;> rfl
        · simp only [Forest.node?]
          split
          · simp [hup]
          · cases h1 : k.node? n <;> cases h2 : (k.update m fun v k => (f v, k)).node? n <;> simp_all
    have := hnode c.idx i.idx s.arena.forest
    simp only [Arena.modify] at hy
    rw [hx, hy] at this
    simpa using this
  have : t = [] := by
    have := congrArg List.length ht
    simp only [List.length_append, List.length_map] at this
    exact List.eq_nil_of_length_eq_zero (by omega)
  rw [this, List.append_nil] at ht
  exact ht

/-- One parameter. -/
theorem below_argument {n : Node} (hn : ∃ a b d e f g h i, n = .functionArgument a b d e f g h i) (fuel : Nat) {c : NodeId}
    {s : Collector} (ha : s.arena.Ok) {l : List (SymbolKind × Text)} (hb : Below s.arena c l) :
    OkThat (fun s' : Collector => s'.arena.Ok ∧ ∃ x, argumentName n = some x ∧ Below s'.arena c (l ++ [(.functionParameter, x)]))
      (traverse Node.children visitor fuel n c s) := by
  obtain ⟨ty, name, x1, x2, x3, x4, doc, x5, rfl⟩ := hn
  cases fuel with
  | zero => exact OkThat.deep
  | succ fuel =>
    unfold traverse
    refine OkThat.bind (before_arena (p := c) (.functionArgument ty name x1 x2 x3 x4 doc x5) s) fun s1 e1 => ?_
    refine OkThat.bind (Q := fun q : NextAction × Collector => q.1 = .abort ∧ q.2.arena.Ok ∧ ∃ x, name.display = some x ∧
      Below q.2.arena c (l ++ [(.functionParameter, x)])) ?_ fun q hq => ?_
    · show OkThat _ (visitArgument _ ty name doc c s1)
      unfold visitArgument
      refine OkThat.bindOption fun ts _ => OkThat.bindOption fun x hx => OkThat.bindOption fun rg _ => OkThat.bindOption fun sel _ => ?_
      refine OkThat.bind (Q := fun q : NodeId × Collector => q.2.arena.Ok ∧ Below q.2.arena c (l ++ [(.functionParameter, x)])) ?_
        fun q hq => ?_
      · unfold add
        refine OkThat.bindOption fun w hw => OkThat.ok ?_
        rw [e1] at hw ⊢
        have := Longer.addChild hw { Symbol.default with
          name := x, kind := .functionParameter, range := getRange rg, selectionRange := getRange sel, dataTypes := ts,
          deprecated := deprecated doc }
        obtain ⟨cs, hc, rfl⟩ := hb
        exact ⟨(this.1 ha).1, _, this.2 ha cs hc, by simp⟩
      · refine (below_change (i := c) hq.1 hq.2
          (f := fun v => { v with parameters := v.parameters ++ [⟨q.1⟩] }) fun v => ⟨rfl, rfl, rfl, rfl, rfl⟩).bind fun s' h' => ?_
        exact OkThat.ok ⟨rfl, h'.1, x, hx, h'.2⟩
    · obtain ⟨e, h1, h2⟩ := hq
      rw [e]
      refine OkThat.mono (after_arena (p := c) (.functionArgument ty name x1 x2 x3 x4 doc x5) q.2) fun s4 e4 => ?_
      rw [e4]
      exact ⟨h1, h2⟩

/-- A list of parameters. -/
theorem below_arguments (fuel : Nat) {c : NodeId} : ∀ (args : List Node),
    (∀ n ∈ args, ∃ a b d e f g h i, n = .functionArgument a b d e f g h i) →
    ∀ (s : Collector) (l : List (SymbolKind × Text)), s.arena.Ok → Below s.arena c l →
    OkThat (fun s' : Collector => s'.arena.Ok ∧ ∃ names : List Text, args.map argumentName = names.map some ∧
      Below s'.arena c (l ++ names.map fun x => (.functionParameter, x)))
      (args.foldlM (fun s n => traverse Node.children visitor fuel n c s) s)
  | [], _, s, l, ha, hb => OkThat.ok ⟨ha, [], rfl, by simpa using hb⟩
  | n :: args, h, s, l, ha, hb => by
    rw [List.foldlM_cons]
    refine (below_argument (h n (by simp)) fuel ha hb).bind fun s' hs => ?_
    obtain ⟨ha', x, hx, hb'⟩ := hs
    refine (below_arguments fuel args (fun m hm => h m (by simp [hm])) s' _ ha' hb').mono fun s2 h2 => ?_
    obtain ⟨ha2, names, e, hb2⟩ := h2
    exact ⟨ha2, x :: names, by simp [hx, e], by simpa using hb2⟩

/-- The walk over the parameters, the return type and the body of a function. -/
theorem below_definition (fuel : Nat) {c : NodeId} {op cp : Token} {args : List Node} {rt b doc : Option Node}
    (h : ∀ n ∈ args, ∃ a b d e f g h i, n = .functionArgument a b d e f g h i) {s : Collector} {l : List (SymbolKind × Text)}
    (ha : s.arena.Ok) (hb : Below s.arena c l) :
    OkThat (fun s' : Collector => s'.arena.Ok ∧ ∃ (names : List Text) (more : _), args.map argumentName = names.map some ∧
      Below s'.arena c (l ++ names.map (fun x => (.functionParameter, x)) ++ more))
      (traverse Node.children visitor fuel (.functionDefinitionStatement op (some args) cp rt b doc) c s) := by
  cases fuel with
  | zero => exact OkThat.deep
  | succ fuel =>
    unfold traverse
    refine OkThat.bind (before_arena (p := c) (.functionDefinitionStatement op (some args) cp rt b doc) s) fun s1 e1 => ?_
    rw [show visitor.visit (.functionDefinitionStatement op (some args) cp rt b doc) c s1 =
      Out.ok (.processChildren c, s1) from rfl, Out.bind_ok]
    simp only
    rw [show (Node.functionDefinitionStatement op (some args) cp rt b doc).children = args ++ (rt.toList ++ b.toList) by
      simp [Node.children], List.foldlM_append]
    refine OkThat.bind (Q := fun s3 : Collector => s3.arena.Ok ∧ ∃ (names : List Text) (more : _),
      args.map argumentName = names.map some ∧ Below s3.arena c (l ++ names.map (fun x => (.functionParameter, x)) ++ more))
      ?_ fun s3 h3 => ?_
    · refine (below_arguments fuel args h s1 l (e1 ▸ ha) (e1 ▸ hb)).bind fun s2 h2 => ?_
      obtain ⟨ha2, names, e, hb2⟩ := h2
      refine (OkThat.foldlM (P := fun s' : Collector => Longer s2.arena s'.arena)
          (fun s' n h => (longer_traverse fuel n c s').mono fun _ h' => h.trans h') _ _ (.refl _)).mono fun s3 h3 => ?_
      obtain ⟨ha3, more, hb3⟩ := h3.below ha2 hb2
      exact ⟨ha3, names, more, e, hb3⟩
    · refine OkThat.mono (after_arena (p := c) (.functionDefinitionStatement op (some args) cp rt b doc) s3) fun s4 e4 => ?_
      rw [e4]
      exact h3

/-- A new symbol has nothing below it, and its place and name are those asked for. -/
theorem add_new {s : Collector} {p : NodeId} {v : Symbol} (ha : s.arena.Ok) :
    OkThat (fun q : NodeId × Collector => q.2.arena.Ok ∧ Longer s.arena q.2.arena ∧ Below q.2.arena q.1 [] ∧
      ∃ cs, q.2.arena.children? p = some cs ∧ (q.1, v) ∈ cs) (s.add p v) := by
  unfold add
  refine OkThat.bindOption fun w hw => OkThat.ok ?_
  have hl := Longer.addChild hw v
  have hok := (hl.1 ha).1
  refine ⟨hok, hl.1, ?_⟩
  have hp : ∃ p', (∃ q, s.arena.Has p' w q) ∧ p'.idx = p.idx := by
    unfold Arena.get? at hw
    obtain ⟨⟨i, v', k⟩, hn, rfl⟩ := Option.map_eq_some_iff.1 hw
    obtain ⟨e, q, hq⟩ := Arena.has_of_node? hn
    exact ⟨i, ⟨q, hq⟩, e⟩
  obtain ⟨p', ⟨q, hp'⟩, e⟩ := hp
  have hnew : (s.arena.addChild p v).2.Has s.arena.fresh v (some p') :=
    (Arena.has_addChild ha hp' e v s.arena.fresh v (some p')).2 (.inr ⟨rfl, rfl, rfl⟩)
  refine ⟨?_, ?_⟩
  rotate_left
  · unfold Arena.get? at hw
    obtain ⟨x, hx, _⟩ := Option.map_eq_some_iff.1 hw
    have := hl.2 ha x.2.2.tops (by unfold Arena.children?; rw [hx]; rfl)
    exact ⟨_, this, List.mem_append_right _ (List.mem_singleton.2 rfl)⟩
  obtain ⟨l, hl', hm⟩ := Arena.has_children hok hnew
  refine ⟨l, hl', ?_⟩
  cases l with
  | nil => rfl
  | cons x r =>
    exfalso
    have := (hm x.1 x.2).1 (by simp)
    rcases (Arena.has_addChild ha hp' e v x.1 x.2 _).1 this with h | ⟨_, _, h⟩
    · obtain ⟨u, q', hu⟩ := h.up
      exact hu.ne_fresh ha rfl
    · injection h with h
      exact hp'.ne_fresh ha (by rw [h])

/-- The symbol of a function and what is below it, once the function was read. -/
def Collected (a : Arena Symbol) (p : NodeId) (kind : SymbolKind) (name : Token) (args attributes : List Node) : Prop :=
  ∃ (c : NodeId) (v : Symbol) (cs : List (NodeId × Symbol)) (first more : List (SymbolKind × Text)) (names : List Text),
    a.children? p = some cs ∧ (c, v) ∈ cs ∧ v.kind = kind ∧ name.display = some v.name ∧
    args.map argumentName = names.map some ∧
    Below a c (first ++ names.map (fun x => (.functionParameter, x)) ++ more) ∧ (attributes = [] → first = [])

theorem collected_longer {a a' : Arena Symbol} (h : Longer a a') (ha : a.Ok) {p : NodeId} {kind : SymbolKind} {name : Token}
    {args attributes : List Node} (hc : Collected a p kind name args attributes) : Collected a' p kind name args attributes := by
  obtain ⟨c, v, cs, first, more, names, h1, h2, h3, h4, h5, h6, h7⟩ := hc
  obtain ⟨cs', h1', t, ht⟩ := (h ha).2 p cs h1
  obtain ⟨_, more', h6'⟩ := h.below ha h6
  have hm : childKey (c, v) ∈ cs'.map childKey := by
    rw [← ht]
    exact List.mem_append_left _ (List.mem_map.2 ⟨_, h2, rfl⟩)
  obtain ⟨⟨c', v'⟩, hm', e⟩ := List.mem_map.1 hm
  simp only [childKey, Prod.mk.injEq] at e
  obtain ⟨rfl, e1, e2⟩ := e
  exact ⟨c', v', cs', first, more ++ more', names, h1', hm', e1.trans h3, by rw [e2]; exact h4, h5,
    by simpa using h6', h7⟩

/-- The walk below the symbol of a function. -/
theorem collected_children (fuel : Nat) {p c : NodeId} {v : Symbol} {kind : SymbolKind} {name op cp : Token} {args : List Node}
    {rt b doc : Option Node} {attributes : List Node} (hk : v.kind = kind) (hn : name.display = some v.name)
    (h : ∀ n ∈ args, ∃ a b d e f g h i, n = .functionArgument a b d e f g h i) {s : Collector}
    (ha : s.arena.Ok) (hb : Below s.arena c []) {cs : List (NodeId × Symbol)} (hp : s.arena.children? p = some cs)
    (hm : (c, v) ∈ cs) :
    OkThat (fun s' : Collector => s'.arena.Ok ∧ Collected s'.arena p kind name args attributes)
      ((attributes ++ [Node.functionDefinitionStatement op (some args) cp rt b doc]).foldlM
        (fun s n => traverse Node.children visitor fuel n c s) s) := by
  rw [List.foldlM_append]
  refine OkThat.bind (Q := fun s2 : Collector => Longer s.arena s2.arena ∧ (attributes = [] → s2 = s)) ?_ fun s2 h2 => ?_
  · cases attributes with
    | nil => exact OkThat.ok ⟨.refl _, fun _ => rfl⟩
    | cons x l =>
      refine OkThat.mono (OkThat.foldlM (P := fun s' : Collector => Longer s.arena s'.arena)
          (fun s' n h => (longer_traverse fuel n c s').mono fun _ h' => h.trans h') _ _ (.refl _)) fun s2 h2 => ?_
      exact ⟨h2, fun e => nomatch e⟩
  · obtain ⟨hl, he⟩ := h2
    rw [List.foldlM_cons]
    have h2 : ∃ first, Below s2.arena c first ∧ (attributes = [] → first = []) := by
      cases attributes with
      | nil => exact ⟨[], by rw [he rfl]; exact hb, fun _ => rfl⟩
      | cons x l =>
        obtain ⟨_, more, hb'⟩ := hl.below ha hb
        exact ⟨_, hb', fun e => nomatch e⟩
    obtain ⟨first, hf, hfe⟩ := h2
    have hl' := longer_traverse fuel (.functionDefinitionStatement op (some args) cp rt b doc) c s2
    have hd := below_definition fuel (op := op) (cp := cp) (rt := rt) (b := b) (doc := doc) h (hl ha).1 hf
    intro s3 h3
    obtain ⟨s4, h4, h5⟩ := Out.bind_eq_ok h3
    injection h5 with h5
    subst h5
    obtain ⟨ha4, names, more, e, hb4⟩ := hd s4 h4
    refine ⟨ha4, ?_⟩
    obtain ⟨cs', h1', t, ht⟩ := ((hl.trans (hl' s4 h4)) ha).2 p cs hp
    have hm2 : childKey (c, v) ∈ cs'.map childKey := by
      rw [← ht]
      exact List.mem_append_left _ (List.mem_map.2 ⟨_, hm, rfl⟩)
    obtain ⟨⟨c', v'⟩, hm', e'⟩ := List.mem_map.1 hm2
    simp only [childKey, Prod.mk.injEq] at e'
    obtain ⟨rfl, e1, e2⟩ := e'
    exact ⟨c', v', cs', first, more, names, h1', hm', e1.trans hk, by rw [e2]; exact hn, e, hb4, hfe⟩

/-- C63, functions.  Once a function was read, its symbol is below the symbol it was found in, and the symbols below it are its
parameters, in the order in which they are written; what the attributes contain comes before them and what the body contains
behind. -/
theorem C63_function (fuel : Nat) (p : NodeId) (s : Collector) (t : Token) (byRef : Option Token) (name op cp : Token)
    (args : List Node) (rt b doc : Option Node) (attributes : List Node) (ha : s.arena.Ok)
    (h : ∀ n ∈ args, ∃ a b d e f g h i, n = .functionArgument a b d e f g h i) :
    OkThat (fun s' : Collector => s'.arena.Ok ∧ Collected s'.arena p .function name args attributes)
      (traverse Node.children visitor fuel (.namedFunctionDefinitionStatement t byRef name
        (.functionDefinitionStatement op (some args) cp rt b doc) attributes) p s) := by
  cases fuel with
  | zero => exact OkThat.deep
  | succ fuel =>
    unfold traverse
    refine OkThat.bind (before_arena (p := p) (.namedFunctionDefinitionStatement t byRef name
        (.functionDefinitionStatement op (some args) cp rt b doc) attributes) s) fun s1 e1 => ?_
    refine OkThat.bind (Q := fun q : NextAction × Collector => ∃ c v cs, q.1 = .processChildren c ∧ q.2.arena.Ok ∧
      Below q.2.arena c [] ∧ q.2.arena.children? p = some cs ∧ (c, v) ∈ cs ∧ v.kind = .function ∧ name.display = some v.name)
      ?_ fun q hq => ?_
    · show OkThat _ (visitFunction _ name (.functionDefinitionStatement op (some args) cp rt b doc) p s1)
      unfold visitFunction
      refine OkThat.bindOption fun ts _ => OkThat.bindOption fun rg _ => OkThat.bindOption fun x hx => OkThat.bindOption fun sel _ => ?_
      refine (add_new (p := p) (e1 ▸ ha)).bind fun q hq => OkThat.ok ?_
      obtain ⟨h1, _, h2, cs, h3, h4⟩ := hq
      exact ⟨q.1, _, cs, rfl, h1, h2, h3, h4, rfl, hx⟩
    · obtain ⟨c, v, cs, e, h1, h2, h3, h4, h5, h6⟩ := hq
      rw [e]
      simp only
      refine OkThat.bind (collected_children fuel (name := name) (attributes := attributes) h5 h6 h h1 h2 h3 h4) fun s3 h7 => ?_
      refine OkThat.mono (after_arena (p := p) (.namedFunctionDefinitionStatement t byRef name
        (.functionDefinitionStatement op (some args) cp rt b doc) attributes) s3) fun s4 e4 => ?_
      rw [e4]
      exact h7

/-- C63, methods.  The same for methods. -/
theorem C63_method (fuel : Nat) (p : NodeId) (s : Collector) (t : Token) (isFinal byRef : Option Token) (name op cp : Token)
    (visibility isAbstract isStatic : Option Token) (mdoc : Option Node)
    (args : List Node) (rt b doc : Option Node) (attributes : List Node) (ha : s.arena.Ok)
    (h : ∀ n ∈ args, ∃ a b d e f g h i, n = .functionArgument a b d e f g h i) :
    OkThat (fun s' : Collector => s'.arena.Ok ∧ Collected s'.arena p .method name args attributes)
      (traverse Node.children visitor fuel (.methodDefinitionStatement t isFinal byRef name visibility isAbstract
        (.functionDefinitionStatement op (some args) cp rt b doc) isStatic mdoc attributes) p s) := by
  cases fuel with
  | zero => exact OkThat.deep
  | succ fuel =>
    unfold traverse
    refine OkThat.bind (before_arena (p := p) (.methodDefinitionStatement t isFinal byRef name visibility isAbstract
        (.functionDefinitionStatement op (some args) cp rt b doc) isStatic mdoc attributes) s) fun s1 e1 => ?_
    refine OkThat.bind (Q := fun q : NextAction × Collector => ∃ c v cs, q.1 = .processChildren c ∧ q.2.arena.Ok ∧
      Below q.2.arena c [] ∧ q.2.arena.children? p = some cs ∧ (c, v) ∈ cs ∧ v.kind = .method ∧ name.display = some v.name)
      ?_ fun q hq => ?_
    · show OkThat _ (visitMethod _ name (.functionDefinitionStatement op (some args) cp rt b doc) isStatic mdoc visibility p s1)
      unfold visitMethod
      refine OkThat.bindOption fun ts _ => OkThat.bindOption fun rg _ => OkThat.bindOption fun x hx => OkThat.bindOption fun sel _ => ?_
      refine (add_new (p := p) (e1 ▸ ha)).bind fun q hq => OkThat.ok ?_
      obtain ⟨h1, _, h2, cs, h3, h4⟩ := hq
      exact ⟨q.1, _, cs, rfl, h1, h2, h3, h4, rfl, hx⟩
    · obtain ⟨c, v, cs, e, h1, h2, h3, h4, h5, h6⟩ := hq
      rw [e]
      simp only
      refine OkThat.bind (collected_children fuel (name := name) (attributes := attributes) h5 h6 h h1 h2 h3 h4) fun s3 h7 => ?_
      refine OkThat.mono (after_arena (p := p) (.methodDefinitionStatement t isFinal byRef name visibility isAbstract
        (.functionDefinitionStatement op (some args) cp rt b doc) isStatic mdoc attributes) s3) fun s4 e4 => ?_
      rw [e4]
      exact h7

/-- C63, the rest of the file.  Whatever is read behind a function or a method, its parameters stay where they are. -/
theorem C63_rest (fuel : Nat) (p q : NodeId) (kind : SymbolKind) (name : Token) (args attributes : List Node) (rest : List Node)
    (s : Collector) (ha : s.arena.Ok) (hc : Collected s.arena p kind name args attributes) :
    OkThat (fun s' : Collector => Collected s'.arena p kind name args attributes)
      (rest.foldlM (fun s n => traverse Node.children visitor fuel n q s) s) :=
  OkThat.mono (OkThat.foldlM (P := fun s' : Collector => Longer s.arena s'.arena)
    (fun s' n h => (longer_traverse fuel n q s').mono fun _ h' => h.trans h') _ _ (.refl _)) fun _ h => collected_longer h ha hc

end Collector

namespace Backend

/-- The answer to a completion in the second of two files. -/
def shownOf (other text : Text) (position : Pos) (trigger : Option Char) : Out (Option (List ShownItem)) := do
  let st ← initWorkspace plainHost [(c!"b.php", other), (c!"a.php", text)] empty
  let st ← didOpen plainHost c!"a.php" (some text) st
  st.completionShown plainHost trigger position c!"a.php"

/-- The label and the text that is inserted. -/
def inserted (x : Out (Option (List ShownItem))) : Option (List (Text × Option Text)) :=
  match x with
  | .ok (some l) => some (l.map fun i => (i.label, i.insertText))
  | _ => none

/-- A run that meets the hypotheses: a function with two parameters and a class, in a file that is not opened. -/
example : shownOf c!"<?php function foo($a, $c) {} class Fo {}" c!"<?php new fo" ⟨0, 12⟩ none = .ok (some [
    ⟨c!"Fo", [], some c!"class \\Fo", some .cls, false, none, false⟩,
    ⟨c!"$foo", [], some c!"foo()", some .function, false, some c!"foo(${1:\\$a}, ${2:\\$c})", true⟩]) ∧
    readSnippet .text c!"foo(${1:\\$a}, ${2:\\$c})" = some (c!"foo($a, $c)", [1, 2]) := by
  decide +kernel

/-- A deprecated static method. -/
example : shownOf [] c!"<?php class A { /** @deprecated */ public static function foo($a) {} } function g() { A::; }" ⟨0, 89⟩ (some ':') =
    .ok (some [⟨c!"$foo", [], some c!"public foo()", some .method, true, some c!"foo(${1:\\$a})", true⟩,
      ⟨c!"$class", [], none, some .constant, false, none, false⟩]) := by
  decide +kernel

/-- C63 is violated: in a file that is open the local variables of a function are arguments of the call that is inserted. -/
theorem C63_violated_local : inserted (shownOf [] c!"<?php function foo($a) { $b = 1; } new fo" ⟨0, 41⟩ none) =
    some [(c!"$foo", some c!"foo(${1:\\$a}, ${2:\\$b})")] := by
  decide +kernel

/-- C63 is violated: a comment `@var` with the name of a parameter moves the parameter behind the others. -/
theorem C63_violated_order :
    inserted (shownOf [] c!"<?php function foo($a, $b) { /** @var Foo $a */ $c = 1; } new fo" ⟨0, 64⟩ none) =
      some [(c!"$foo", some c!"foo(${1:\\$b}, ${2:\\$a}, ${3:\\$c})")] := by
  decide +kernel

/-- C63 is violated: a function inside a function is an argument of the outer one. -/
theorem C63_violated_nested :
    inserted (shownOf c!"<?php function foo($a) { function bar() {} }" c!"<?php new fo" ⟨0, 12⟩ none) =
      some [(c!"$foo", some c!"foo(${1:\\$a}, ${2:\\$bar})")] := by
  decide +kernel

/-- C63 is violated: a method that is used under another name is shown with that name, but the original name is inserted. -/
theorem C63_violated_alias : inserted (shownOf []
    c!"<?php trait T { function foo($a) {} } class A { use T { foo as bar; } } function g(A $a) { $a->; }" ⟨0, 95⟩ (some '>')) =
      some [(c!"$bar", some c!"foo(${1:\\$a})"), (c!"$foo", some c!"foo(${1:\\$a})")] := by
  decide +kernel

/-- C63 is violated: `A::class` is offered as `$class`, and as there is no other text to insert `A::$class` is written. -/
theorem C63_violated_constant : inserted (shownOf [] c!"<?php class A {} function g() { A::; }" ⟨0, 35⟩ (some ':')) =
    some [(c!"$class", none)] := by
  decide +kernel

end Backend

end PhpLs
