import Verif.Props.GlobalTable
import Verif.Runs
import Verif.Relocate

/-!
# C39, C40, C41: documents and their diagnostics

The notifications about documents: what text and what tree the server has, what it publishes, and what it does with files that
change on the disk.

* `C39_text_partial`: the text the server has is the last one the client sent, if documents are opened unchanged and each
  notification has at most one change.  `C39_tree_partial`: then the tree is that of the text, if the text can be scanned.
  `C39_violated_disk`, `C39_violated_changes`, `C39_violated_scan`: without these conditions it is not.
* `C40_change_partial`, `C40_open_partial`: what is published is the parse errors of the text, followed by the findings of this
  notification that are filed under the document: nothing is stale.  `C40_single_partial`: with one open document these are the
  findings of one run.  `C40_violated_stale`, `C40_violated_duplicates`, `C40_violated_other`: otherwise there are stale and
  duplicated entries, and other documents are not published again.
* `C36_text`: the symbols of a file depend on its text only.
* `C41_watched_partial`: files that are not open and can be read are brought up to date.  `C41_alive_partial`: no crash.  `C41_violated_open`,
  `C41_violated_crash`, `C41_violated_deleted`: the loop ends at the first open file, crashes at a deleted one, and nothing is ever
  removed.
-/

namespace PhpLs

open Out

/-! ## What the client says -/

/-- A notification of the client about a document.  `disk` is what the file contains at that time. -/
inductive Event where
  | opened (path text : Text) (disk : Option Text)
  | changed (path : Text) (texts : List Text)
  | closed (path : Text)

/-- The text of a document as the client knows it, after some notifications (newest first): each change replaces the whole text,
and changes apply in order, so the last one counts. -/
def textOf (path : Text) : List Event → Option Text
  | [] => none
  | .opened p text _ :: r => if p = path then some text else textOf path r
  | .changed p texts :: r => if p = path then (match texts.getLast? with | some t => some t | none => textOf path r) else textOf path r
  | .closed p :: r => if p = path then none else textOf path r

/-- The document is opened as it is on the disk, and there is at most one change. -/
def Event.Simple : Event → Prop
  | .opened _ text disk => disk = some text
  | .changed _ texts => texts.length ≤ 1
  | .closed _ => True

/-- A document that is open is not opened again (this is a rule of the protocol). -/
def Polite : List Event → Prop
  | [] => True
  | .opened p _ _ :: r => textOf p r = none ∧ Polite r
  | _ :: r => Polite r

namespace Backend

/-- The states that the notifications lead to, with anything else in between. -/
inductive Session (h : Host) : List Event → Backend → Prop where
  | start : Session h [] empty
  | workspace {es : List Event} {st st' : Backend} (files : List (Text × Text)) : Session h es st →
      Backend.initWorkspace h files st = .ok st' → Session h es st'
  | ready {es : List Event} {st : Backend} : Session h es st → Session h es (Backend.initialized st)
  | «open» {es : List Event} {st st' : Backend} (path text : Text) (disk : Option Text) : Session h es st →
      Backend.didOpen h path disk st = .ok st' → Session h (.opened path text disk :: es) st'
  | change {es : List Event} {st st' : Backend} (path : Text) (changes : List Text) : Session h es st →
      Backend.didChange h path changes st = .ok st' → Session h (.changed path changes :: es) st'
  | close {es : List Event} {st : Backend} (path : Text) : Session h es st →
      Session h (.closed path :: es) (Backend.didClose path st)
  | watched {es : List Event} {st st' : Backend} (events : List (Text × Option Text)) : Session h es st →
      Backend.didChangeWatched h events st = .ok st' → Session h es st'
  | references {es : List Event} {st : Backend} {r : Option (List Location) × Backend} (disk : Text → Option Text)
      (position : Pos) (path : Text) : Session h es st → Backend.findReferences h disk position path st = .ok r →
      Session h es r.2
  | rename {es : List Event} {st : Backend} {r : Option (List (Text × List LspRange)) × Backend} (disk : Text → Option Text)
      (position : Pos) (path : Text) : Session h es st → Backend.rename h disk position path st = .ok r → Session h es r.2

/-- The documents are the same. -/
structure SameDocs (st st' : Backend) : Prop where
  latest : st'.latest = st.latest
  opened : st'.opened = st.opened

namespace SameDocs

theorem refl (st : Backend) : SameDocs st st := ⟨rfl, rfl⟩

theorem trans {a b c : Backend} (h : SameDocs a b) (h' : SameDocs b c) : SameDocs a c :=
  ⟨h'.latest.trans h.latest, h'.opened.trans h.opened⟩

end SameDocs

/-- Indexing a file leaves documents and diagnostics alone. -/
theorem collectSymbols_docs (h : Host) (path : Text) (ast : List Node) (range : LspRange) (st : Backend) :
    OkThat (fun st' : Backend => SameDocs st st' ∧ st'.diagnostics = st.diagnostics) (collectSymbols h path ast range st) := by
  unfold collectSymbols
  refine (OkThat.any _).bind fun c _ => ?_
  refine OkThat.bind (Q := fun st' : Backend => SameDocs st st' ∧ st'.diagnostics = st.diagnostics) ?_ fun st' h' => ?_
  · split
    · unfold dropFile
      exact OkThat.bindOption fun _ _ => OkThat.bindOption fun _ _ => OkThat.ok ⟨⟨rfl, rfl⟩, rfl⟩
    · exact OkThat.ok ⟨⟨rfl, rfl⟩, rfl⟩
  · exact OkThat.bindOption fun kids _ => OkThat.ok ⟨⟨h'.1.latest, h'.1.opened⟩, h'.2⟩

theorem resolveFile_docs (h : Host) (path : Text) (ast : List Node) (st : Backend) :
    OkThat (fun p : Option FileRefs × Backend => SameDocs st p.2) (resolveFile h path ast st) := by
  unfold resolveFile
  split
  · exact OkThat.ok (.refl st)
  · exact (OkThat.any _).bind fun _ _ => (OkThat.any _).bind fun _ _ => OkThat.ok ⟨rfl, rfl⟩

theorem collectReferences_docs (h : Host) (path : Text) (ast : List Node) (st : Backend) :
    OkThat (SameDocs st) (collectReferences h path ast st) := by
  unfold collectReferences
  refine (resolveFile_docs h path ast st).bind fun p hp => ?_
  split
  · exact OkThat.ok ⟨hp.latest, hp.opened⟩
  · exact OkThat.ok hp

theorem didChangeWatched_docs (h : Host) : ∀ (l : List (Text × Option Text)) (st : Backend),
    OkThat (SameDocs st) (didChangeWatched h l st)
  | [], st => OkThat.ok (.refl st)
  | (path, disk) :: rest, st => by
    unfold didChangeWatched
    split
    · exact OkThat.ok (.refl st)
    · refine OkThat.bindOption fun content _ => (OkThat.any _).bind fun p _ => ?_
      split
      · exact didChangeWatched_docs h rest st
      · refine (collectSymbols_docs h path _ _ st).bind fun st' h' => OkThat.bindOption fun ds _ => ?_
        exact (didChangeWatched_docs h rest _).mono fun _ e => ⟨e.latest.trans h'.1.latest, e.opened.trans h'.1.opened⟩

theorem indexFiles_docs (h : Host) : ∀ (l : List (Text × Text)) (st : Backend), OkThat (SameDocs st) (indexFiles h l st)
  | [], st => OkThat.ok (.refl st)
  | (path, content) :: rest, st => by
    unfold indexFiles
    refine (OkThat.any _).bind fun p _ => ?_
    split
    · exact indexFiles_docs h rest st
    · refine (collectSymbols_docs h path _ _ st).bind fun st' h' => OkThat.bindOption fun ds _ => ?_
      exact (indexFiles_docs h rest _).mono fun _ e => ⟨e.latest.trans h'.1.latest, e.opened.trans h'.1.opened⟩

theorem initWorkspace_docs (h : Host) (files : List (Text × Text)) (st : Backend) :
    OkThat (SameDocs st) (initWorkspace h files st) := by
  unfold initWorkspace
  refine (indexFiles_docs h files st).bind fun st' h' => ?_
  unfold rebuildGlobals
  exact (OkThat.any _).bind fun g _ => OkThat.ok ⟨h'.latest, h'.opened⟩

theorem collectEverywhere_docs (h : Host) (disk : Text → Option Text) (name : Text) (st : Backend) :
    OkThat (fun p : Dict Text FileRefs × Backend => SameDocs st p.2) (collectEverywhere h disk name st) := by
  unfold collectEverywhere
  refine OkThat.foldlM (P := fun p : Dict Text FileRefs × Backend => SameDocs st p.2) (fun acc f ha => ?_) _ _ (.refl st)
  unfold searchFile
  split
  · exact OkThat.ok ha
  · split
    · refine (OkThat.any _).bind fun p _ => ?_
      split
      · exact OkThat.ok ha
      · refine (resolveFile_docs h f.1 _ acc.2).bind fun q hq => ?_
        split
        · exact OkThat.ok (ha.trans hq)
        · exact OkThat.ok (ha.trans hq)
    · exact OkThat.ok ha

theorem findReferences_docs (h : Host) (disk : Text → Option Text) (position : Pos) (path : Text) (st : Backend) :
    OkThat (fun p : Option (List Location) × Backend => SameDocs st p.2) (findReferences h disk position path st) := by
  unfold findReferences
  refine (OkThat.any _).bind fun s _ => ?_
  split
  · exact OkThat.ok (.refl st)
  · exact (collectEverywhere_docs h disk _ st).bind fun p hp => OkThat.ok hp

theorem rename_docs (h : Host) (disk : Text → Option Text) (position : Pos) (path : Text) (st : Backend) :
    OkThat (fun p : Option (List (Text × List LspRange)) × Backend => SameDocs st p.2) (Backend.rename h disk position path st) := by
  unfold Backend.rename
  split
  · exact OkThat.ok (.refl st)
  · split
    · exact OkThat.ok (.refl st)
    · exact OkThat.bindOption fun s _ => (collectEverywhere_docs h disk _ st).bind fun p hp => OkThat.ok hp

/-- The trees after the one of a document was replaced. -/
def withTree (d : Dict Text (List Node × LspRange)) (path : Text) :
    Option (List Node × LspRange × List Parser.Err) → Dict Text (List Node × LspRange)
  | some (ast, range, _) => Dict.insert d path (ast, range)
  | none => d

/-- What a change does with the documents. -/
theorem refreshFile_docs (h : Host) (path source : Text) (st : Backend) :
    OkThat (fun st' : Backend => st'.latest = st.latest ∧ ∃ p, sourceToAst h source = .ok p ∧
      st'.opened = withTree st.opened path p)
      (refreshFile h path source st) := by
  unfold refreshFile
  intro st' e
  obtain ⟨p, hp, e⟩ := Out.bind_eq_ok e
  obtain ⟨st1, h1, e⟩ := Out.bind_eq_ok e
  have h2 : SameDocs st1 st' := by
    refine OkThat.foldlM (P := SameDocs st1) (fun s x hs => ?_) _ _ (.refl st1) st' e
    exact (collectReferences_docs h x.1 x.2.1 s).mono fun _ h' => hs.trans h'
  have h3 : st1.latest = st.latest ∧
      st1.opened = withTree st.opened path p := by
    cases p with
    | some p =>
      obtain ⟨ast, range, errors⟩ := p
      obtain ⟨s, hs, h1⟩ := Out.bind_eq_ok h1
      obtain ⟨ds, _, h1⟩ := Out.bind_eq_ok h1
      have hs := collectSymbols_docs h path ast range st s hs
      cases h1
      exact ⟨hs.1.latest, by simp [withTree, hs.1.opened]⟩
    | none =>
      cases h1
      exact ⟨rfl, rfl⟩
  exact ⟨h2.latest.trans h3.1, p, hp, h2.opened.trans h3.2⟩

/-- What opening does with the documents. -/
theorem didOpen_docs (h : Host) (path : Text) (disk : Option Text) (st : Backend) :
    OkThat (fun st' : Backend => ∃ source, disk = some source ∧ st'.latest = Dict.insert st.latest path source ∧
      ((Dict.get? st.opened path).isSome ∧ st'.opened = st.opened ∨ Dict.get? st.opened path = none ∧
        ∃ p, sourceToAst h source = .ok p ∧
        st'.opened = withTree st.opened path p))
      (didOpen h path disk st) := by
  unfold didOpen
  refine OkThat.bindOption fun source hs => ?_
  dsimp only
  generalize hd : Dict.get? st.opened path = d
  cases d with
  | some x =>
    refine (collectReferences_docs h path x.1 _).mono fun st' h' => ⟨source, hs, h'.latest, .inl ⟨rfl, h'.opened⟩⟩
  | none =>
    intro st' e
    obtain ⟨p, hp, e⟩ := Out.bind_eq_ok e
    cases p with
    | none =>
      cases e
      exact ⟨source, hs, rfl, .inr ⟨rfl, _, hp, rfl⟩⟩
    | some p =>
      obtain ⟨ast, range, errors⟩ := p
      obtain ⟨ds, _, e⟩ := Out.bind_eq_ok e
      have h' := collectReferences_docs h path ast _ st' e
      exact ⟨source, hs, h'.latest, .inr ⟨rfl, _, hp, h'.opened⟩⟩

end Backend

open Backend

/-! ## C39 -/

private theorem getLast_one {l : List Text} {a : Text} (h : (a :: l).length ≤ 1) : (a :: l).getLast? = some a := by
  cases l with
  | nil => rfl
  | cons b l => simp only [List.length_cons] at h; omega

/-- After any history the text of a document is the last one that the client sent.  Missing: documents that are opened with a
text that is not saved, and notifications with several changes. -/
theorem C39_text_partial (h : Host) (es : List Event) (st : Backend) (hs : Session h es st) (simple : ∀ e ∈ es, e.Simple)
    (path : Text) : Dict.get? st.latest path = textOf path es := by
  induction hs with
  | start => rfl
  | workspace files _ e ih => rw [(initWorkspace_docs h files _ _ e).latest]; exact ih simple
  | ready _ ih => exact ih simple
  | @«open» es st st' p text disk _ e ih =>
    obtain ⟨source, h1, h2, _⟩ := didOpen_docs h p disk st st' e
    have h3 : disk = some text := simple _ (List.mem_cons_self ..)
    rw [h2, Dict.get?_insert, textOf, ih fun e he => simple e (List.mem_cons_of_mem _ he)]
    rw [h1] at h3
    cases h3
    rfl
  | @change es st st' p changes _ e ih =>
    have h3 : changes.length ≤ 1 := simple _ (List.mem_cons_self ..)
    have ih := ih fun e he => simple e (List.mem_cons_of_mem _ he)
    cases changes with
    | nil => cases e; simpa [textOf] using ih
    | cons text more =>
      have h2 := (refreshFile_docs h p text _ st' e).1
      rw [h2, textOf, getLast_one h3]
      show Dict.get? (Dict.insert st.latest p text) path = _
      rw [Dict.get?_insert, ih]
  | @close es st p _ ih =>
    show Dict.get? (Dict.remove st.latest p) path = _
    rw [Dict.get?_remove, textOf, ih fun e he => simple e (List.mem_cons_of_mem _ he)]
  | watched events _ e ih => rw [(didChangeWatched_docs h events _ _ e).latest]; exact ih simple
  | references disk position p _ e ih => rw [(findReferences_docs h disk position p _ _ e).latest]; exact ih simple
  | rename disk position p _ e ih => rw [(rename_docs h disk position p _ _ e).latest]; exact ih simple

/-- Under the same conditions the tree of a document is that of its text, if the text can be scanned, and there is none if the
document is closed.  Missing: also texts that cannot be scanned (they leave the old tree). -/
theorem C39_tree_partial (h : Host) (es : List Event) (st : Backend) (hs : Session h es st) (simple : ∀ e ∈ es, e.Simple)
    (polite : Polite es) (path : Text) :
    (textOf path es = none → Dict.get? st.opened path = none) ∧
    (∀ text ast range errors, textOf path es = some text → sourceToAst h text = .ok (some (ast, range, errors)) →
      Dict.get? st.opened path = some (ast, range)) := by
  induction hs with
  | start => exact ⟨fun _ => rfl, fun _ _ _ _ h => nomatch h⟩
  | workspace files _ e ih => rw [(initWorkspace_docs h files _ _ e).opened]; exact ih simple polite
  | ready _ ih => exact ih simple polite
  | @«open» es st st' p text disk _ e ih =>
    obtain ⟨source, h1, _, h2⟩ := didOpen_docs h p disk st st' e
    have h3 : disk = some text := simple _ (List.mem_cons_self ..)
    obtain ⟨ih1, ih2⟩ := ih (fun e he => simple e (List.mem_cons_of_mem _ he)) polite.2
    rw [h1] at h3
    cases h3
    rw [textOf]
    by_cases hp : p = path
    · subst hp
      rw [if_pos rfl]
      refine ⟨(fun h => nomatch h), fun t ast range errors ht ha => ?_⟩
      cases ht
      rcases h2 with ⟨h2, _⟩ | ⟨_, q, hq, h2⟩
      · rw [ih1 polite.1] at h2
        cases h2
      · rw [ha] at hq
        cases hq
        rw [h2, withTree, Dict.get?_insert, if_pos rfl]
    · rw [if_neg hp]
      have h4 : Dict.get? st'.opened path = Dict.get? st.opened path := by
        rcases h2 with ⟨_, h2⟩ | ⟨_, q, _, h2⟩
        · rw [h2]
        · rw [h2]
          cases q with
          | none => rfl
          | some q => exact (Dict.get?_insert ..).trans (if_neg hp)
      rw [h4]
      exact ⟨ih1, ih2⟩
  | @change es st st' p changes _ e ih =>
    have h3 : changes.length ≤ 1 := simple _ (List.mem_cons_self ..)
    obtain ⟨ih1, ih2⟩ := ih (fun e he => simple e (List.mem_cons_of_mem _ he)) polite
    cases changes with
    | nil =>
      cases e
      have : textOf path (.changed p [] :: es) = textOf path es := by simp [textOf]
      rw [this]
      exact ⟨ih1, ih2⟩
    | cons text more =>
      obtain ⟨_, q, hq, h2⟩ := refreshFile_docs h p text _ st' e
      rw [textOf, getLast_one h3]
      by_cases hp : p = path
      · subst hp
        rw [if_pos rfl]
        refine ⟨(fun h => nomatch h), fun t ast range errors ht ha => ?_⟩
        cases ht
        rw [ha] at hq
        cases hq
        rw [h2, withTree, Dict.get?_insert, if_pos rfl]
      · rw [if_neg hp]
        have h4 : Dict.get? st'.opened path = Dict.get? st.opened path := by
          rw [h2]
          cases q with
          | none => rfl
          | some q => exact (Dict.get?_insert ..).trans (if_neg hp)
        rw [h4]
        exact ⟨ih1, ih2⟩
  | @close es st p _ ih =>
    obtain ⟨ih1, ih2⟩ := ih (fun e he => simple e (List.mem_cons_of_mem _ he)) polite
    show (_ → Dict.get? (Dict.remove st.opened p) path = none) ∧ ∀ text ast range errors, _ → _ →
      Dict.get? (Dict.remove st.opened p) path = _
    rw [Dict.get?_remove, textOf]
    by_cases hp : p = path
    · rw [if_pos hp, if_pos hp]
      exact ⟨fun _ => rfl, fun _ _ _ _ h => nomatch h⟩
    · rw [if_neg hp, if_neg hp]
      exact ⟨ih1, ih2⟩
  | watched events _ e ih => rw [(didChangeWatched_docs h events _ _ e).opened]; exact ih simple polite
  | references disk position p _ e ih => rw [(findReferences_docs h disk position p _ _ e).opened]; exact ih simple polite
  | rename disk position p _ e ih => rw [(rename_docs h disk position p _ _ e).opened]; exact ih simple polite

/-- A document is opened, changed and closed again, and another one is opened: the hypotheses of `C39_text_partial` and
`C39_tree_partial` hold. -/
example : ∃ st, Session plainHost [.opened c!"b.php" c!"<?php $b;" (some c!"<?php $b;"), .closed c!"a.php",
    .changed c!"a.php" [c!"<?php $c;"], .opened c!"a.php" c!"<?php $a;" (some c!"<?php $a;")] st ∧
    textOf c!"b.php" [.opened c!"b.php" c!"<?php $b;" (some c!"<?php $b;"), .closed c!"a.php",
      .changed c!"a.php" [c!"<?php $c;"], .opened c!"a.php" c!"<?php $a;" (some c!"<?php $a;")] = some c!"<?php $b;" ∧
    Polite [.opened c!"b.php" c!"<?php $b;" (some c!"<?php $b;"), .closed c!"a.php",
      .changed c!"a.php" [c!"<?php $c;"], .opened c!"a.php" c!"<?php $a;" (some c!"<?php $a;")] := by
  have h1 : (match (do
      let s ← didOpen plainHost c!"a.php" (some c!"<?php $a;") Backend.empty
      let s ← didChange plainHost c!"a.php" [c!"<?php $c;"] s
      didOpen plainHost c!"b.php" (some c!"<?php $b;") (didClose c!"a.php" s) : Out Backend) with
    | .ok _ => true | _ => false) = true := by decide +kernel
  generalize he : (do
      let s ← didOpen plainHost c!"a.php" (some c!"<?php $a;") Backend.empty
      let s ← didChange plainHost c!"a.php" [c!"<?php $c;"] s
      didOpen plainHost c!"b.php" (some c!"<?php $b;") (didClose c!"a.php" s) : Out Backend) = x at h1
  cases x with
  | ok st =>
    obtain ⟨s1, e1, he⟩ := Out.bind_eq_ok he
    obtain ⟨s2, e2, he⟩ := Out.bind_eq_ok he
    exact ⟨st, .open _ _ _ (.close _ (.change _ _ (.open _ _ _ .start e1) e2)) he, rfl, rfl, rfl, trivial⟩
  | panic => cases h1
  | deep => cases h1

/-- The text that the client sends when it opens a document is not used. -/
theorem C39_violated_disk :
    (match didOpen plainHost c!"a.php" (some c!"<?php $old;") Backend.empty with
      | .ok st => Dict.get? st.latest c!"a.php" | _ => none) = some c!"<?php $old;" ∧
    textOf c!"a.php" [.opened c!"a.php" c!"<?php $new;" (some c!"<?php $old;")] = some c!"<?php $new;" := by
  decide +kernel

/-- A document that is not saved yet crashes the server when it is opened. -/
theorem C39_violated_crash (h : Host) (path : Text) (st : Backend) : didOpen h path none st = .panic := rfl

/-- Of several changes the first one is used. -/
theorem C39_violated_changes :
    (match didChange plainHost c!"a.php" [c!"<?php $first;", c!"<?php $last;"] Backend.empty with
      | .ok st => Dict.get? st.latest c!"a.php" | _ => none) = some c!"<?php $first;" ∧
    textOf c!"a.php" [.changed c!"a.php" [c!"<?php $first;", c!"<?php $last;"]] = some c!"<?php $last;" := by
  decide +kernel

/-- A text that cannot be scanned leaves the tree of the old text. -/
theorem C39_violated_scan :
    (match (do
        let s ← didChange plainHost c!"a.php" [c!"<?php $a;"] Backend.empty
        didChange plainHost c!"a.php" [c!"<?php $a; <<<A"] s : Out Backend) with
      | .ok st => (Dict.get? st.latest c!"a.php", (Dict.get? st.opened c!"a.php").map fun t => t.1.map Node.range) |
        _ => (none, none)) =
    (some c!"<?php $a; <<<A", some ((treeOf c!"<?php $a;").map Node.range)) := by
  decide +kernel

/-! ## C40 -/

namespace Backend

/-- What `did_change` and `did_open` publish for their document (`src/backend/mod.rs` 843–849, 863–872). -/
def published (path : Text) (st : Backend) : Option (List Diagnostic) := Dict.get? st.diagnostics path

/-- The findings of one complete run of the name resolver over a tree. -/
def findings (h : Host) (path : Text) (ast : List Node) (st : Backend) : Out (List Notification) :=
  match Dict.get? st.files path with
  | none => .ok []
  | some file => do
    let a ← purge file st.arena
    let e ← ast.foldlM (fun s node => traverse Node.children (Env.nameVisitor h.U h.H file h.fuel) h.fuel node file s)
      (Env.mk a (Resolver.new st.globals file))
    pure e.resolver.diagnostics

/-- Diagnostics that are filed under a path. -/
def filed (path : Text) (ns : List Notification) : List Diagnostic :=
  (ns.filter fun n => n.file = path).map Diagnostic.ofNotification

end Backend

theorem get?_push {κ α : Type} [DecidableEq κ] (d : Dict κ (List α)) (k k' : κ) (x : α) :
    Dict.get? (Dict.push d k x) k' = if k = k' then some ((Dict.get? d k).getD [] ++ [x]) else Dict.get? d k' := by
  unfold Dict.push
  rw [Dict.get?_insert]

/-- What is filed under a path comes behind what was there. -/
theorem get?_file (path : Text) : ∀ (ns : List Notification) (d : Dict Text (List Diagnostic)) (l : List Diagnostic),
    Dict.get? d path = some l →
    Dict.get? (ns.foldl (fun d n => Dict.push d n.file (Diagnostic.ofNotification n)) d) path = some (l ++ filed path ns)
  | [], d, l, h => by simpa [filed] using h
  | n :: ns, d, l, h => by
    rw [List.foldl_cons]
    by_cases hp : n.file = path
    · have := get?_file path ns (Dict.push d n.file (Diagnostic.ofNotification n)) (l ++ [Diagnostic.ofNotification n])
        (by rw [get?_push, if_pos hp, hp, h]; rfl)
      rw [this]
      simp [filed, hp]
    · have := get?_file path ns (Dict.push d n.file (Diagnostic.ofNotification n)) l
        (by rw [get?_push, if_neg hp]; exact h)
      rw [this]
      simp [filed, hp]

/-- A run files its findings. -/
theorem collectReferences_published (h : Host) (path : Text) (ast : List Node) (st : Backend) (doc : Text) (l : List Diagnostic)
    (hl : Dict.get? st.diagnostics doc = some l) :
    OkThat (fun st' : Backend => ∃ ns, findings h path ast st = .ok ns ∧ Dict.get? st'.diagnostics doc = some (l ++ filed doc ns))
      (collectReferences h path ast st) := by
  unfold collectReferences resolveFile findings
  generalize Dict.get? st.files path = f
  cases f with
  | none => exact OkThat.ok ⟨[], rfl, by simpa [filed] using hl⟩
  | some file =>
    intro st' e
    obtain ⟨p, hp, e⟩ := Out.bind_eq_ok e
    obtain ⟨a, ha, hp⟩ := Out.bind_eq_ok hp
    obtain ⟨env, hv, hp⟩ := Out.bind_eq_ok hp
    cases hp
    cases e
    refine ⟨env.resolver.diagnostics, ?_, get?_file doc _ _ l hl⟩
    dsimp only
    rw [ha]
    simp only [Out.bind_ok]
    rw [hv]
    try rfl

/-- One run for each document, one after the other, with the findings of each. -/
inductive Runs (h : Host) : List (Text × List Node × LspRange) → Backend → List (List Notification) → Backend → Prop where
  | nil {st : Backend} : Runs h [] st [] st
  | cons {d : Text × List Node × LspRange} {docs : List (Text × List Node × LspRange)} {st st1 st' : Backend}
      {ns : List Notification} {runs : List (List Notification)} : findings h d.1 d.2.1 st = .ok ns →
      collectReferences h d.1 d.2.1 st = .ok st1 → Runs h docs st1 runs st' → Runs h (d :: docs) st (ns :: runs) st'

private theorem runs_published (h : Host) (doc : Text) : ∀ (docs : List (Text × List Node × LspRange)) (st : Backend)
    (l : List Diagnostic), Dict.get? st.diagnostics doc = some l →
    OkThat (fun st' : Backend => ∃ runs, Runs h docs st runs st' ∧
      Dict.get? st'.diagnostics doc = some (l ++ filed doc runs.flatten))
      (docs.foldlM (fun st e => collectReferences h e.1 e.2.1 st) st)
  | [], st, l, hl => OkThat.ok ⟨[], .nil, by simpa [filed] using hl⟩
  | d :: docs, st, l, hl => by
    rw [List.foldlM_cons]
    intro st2 e
    obtain ⟨st1, e1, e⟩ := Out.bind_eq_ok e
    obtain ⟨ns, h1, h2⟩ := collectReferences_published h d.1 d.2.1 st doc l hl st1 e1
    obtain ⟨runs, h5, h6⟩ := runs_published h doc docs st1 _ h2 st2 e
    exact ⟨ns :: runs, .cons h1 e1 h5, by rw [h6]; simp [filed]⟩

/-- After a change to a text that can be scanned, the server publishes the errors of this text, followed by the findings of one
run over each open document, as far as they are filed under this one: nothing is left from before.  The runs start from the state
in which the symbols of the text are collected.  Missing: texts that cannot be scanned; findings of the other runs may repeat. -/
theorem C40_change_partial (h : Host) (path text : Text) (more : List Text) (st st' : Backend)
    (e : didChange h path (text :: more) st = .ok st') (ast : List Node) (range : LspRange) (errors : List Parser.Err)
    (hp : sourceToAst h text = .ok (some (ast, range, errors))) :
    ∃ st0 s ds runs, collectSymbols h path ast range { st with latest := Dict.insert st.latest path text } = .ok st0 ∧
      s.arena = st0.arena ∧ s.files = st0.files ∧ s.globals = st0.globals ∧
      diagnosticsOf errors = some ds ∧ Runs h (h.H.order st'.opened) s runs st' ∧
      (path, ast, range) ∈ st'.opened ∧ published path st' = some (ds ++ filed path runs.flatten) := by
  have hd := refreshFile_docs h path text _ st' e
  unfold didChange refreshFile at e
  obtain ⟨p, h1, e⟩ := Out.bind_eq_ok e
  rw [hp] at h1
  cases h1
  obtain ⟨st1, h1, e⟩ := Out.bind_eq_ok e
  dsimp only at h1
  obtain ⟨st0, h0, h1⟩ := Out.bind_eq_ok h1
  obtain ⟨ds, h2, h1⟩ := Out.bind_eq_ok h1
  cases h1
  obtain ⟨runs, h3, h4⟩ := runs_published h path _ _ ds (by rw [Dict.get?_insert, if_pos rfl]) st' e
  obtain ⟨_, q, hq, h5⟩ := hd
  rw [hp] at hq
  cases hq
  refine ⟨st0, { st0 with diagnostics := Dict.insert st0.diagnostics path ds, opened := Dict.insert st0.opened path (ast, range) },
    ds, runs, h0, rfl, rfl, rfl, ofOption_ok h2, ?_, ?_, h4⟩
  · rw [h5]
    simpa [withTree, (collectSymbols_docs h path ast range _ st0 h0).1.opened] using h3
  · rw [h5]
    exact Dict.get?_mem (by rw [withTree, Dict.get?_insert, if_pos rfl])

/-- If this is the only open document, it is one run: that of its own tree. -/
theorem C40_single_partial (h : Host) (path text : Text) (more : List Text) (st st' : Backend)
    (e : didChange h path (text :: more) st = .ok st') (ast : List Node) (range : LspRange) (errors : List Parser.Err)
    (hp : sourceToAst h text = .ok (some (ast, range, errors))) (single : st'.opened.length = 1) :
    ∃ st0 s ds ns, collectSymbols h path ast range { st with latest := Dict.insert st.latest path text } = .ok st0 ∧
      s.arena = st0.arena ∧ s.files = st0.files ∧ s.globals = st0.globals ∧
      diagnosticsOf errors = some ds ∧ findings h path ast s = .ok ns ∧ published path st' = some (ds ++ filed path ns) := by
  obtain ⟨st0, s, ds, runs, h0, ha, hf, hg, h1, h2, h5, h6⟩ := C40_change_partial h path text more st st' e ast range errors hp
  have h7 : (h.H.order st'.opened).length = 1 := by rw [(h.H.perm st'.opened).length_eq, single]
  have h8 : h.H.order st'.opened = [(path, ast, range)] := by
    have hm := (h.H.perm st'.opened).mem_iff.2 h5
    match h9 : h.H.order st'.opened, h7, hm with
    | [x], _, hm => rw [List.mem_singleton.1 hm]
  rw [h8] at h2
  cases h2 with
  | cons h3 h4 h2 =>
    cases h2
    exact ⟨st0, s, ds, _, h0, ha, hf, hg, h1, h3, by simpa using h6⟩

/-- After a document was opened that was not open, with a text that can be scanned, the server publishes the errors of this
text and the findings of one run. -/
theorem C40_open_partial (h : Host) (path source : Text) (st st' : Backend) (e : didOpen h path (some source) st = .ok st')
    (closed : Dict.get? st.opened path = none) (ast : List Node) (range : LspRange) (errors : List Parser.Err)
    (hp : sourceToAst h source = .ok (some (ast, range, errors))) :
    ∃ ds ns, diagnosticsOf errors = some ds ∧ findings h path ast st = .ok ns ∧
      published path st' = some (ds ++ filed path ns) := by
  unfold didOpen at e
  rw [Out.ofOption_some, Out.bind_ok] at e
  dsimp only at e
  rw [closed] at e
  obtain ⟨p, h1, e⟩ := Out.bind_eq_ok e
  rw [hp] at h1
  cases h1
  obtain ⟨ds, h2, e⟩ := Out.bind_eq_ok e
  obtain ⟨ns, h3, h4⟩ := collectReferences_published h path ast _ path ds (by rw [Dict.get?_insert, if_pos rfl]) st' e
  exact ⟨ds, ns, ofOption_ok h2, h3, h4⟩

/-- The published diagnostics of a document after some steps, each with its place and its text. -/
def messagesOf (path : Text) : Out Backend → Option (List (Nat × Nat × Message))
  | .ok st => (published path st).map fun l => l.map fun d => (d.range.start.line, d.range.start.character, d.message)
  | _ => none

/-- The hypotheses of `C40_single_partial` hold and there is an error and a finding: a change of the only open document. -/
example : (match (do
      let s ← startAndOpen [(c!"a.php", c!"<?php $a;")] c!"a.php"
      didChange plainHost c!"a.php" [c!"<?php new Missing; )"] s : Out Backend) with
    | .ok st => (st.opened.length, messagesOf c!"a.php" (.ok st))
    | _ => (0, none)) =
    (1, some [(0, 19, .unexpectedToken .closeParenthesis), (0, 10, .text c!"Unresolvable type (false) 'Missing'")]) := by
  decide +kernel

/-- A text that cannot be scanned leaves the old findings and repeats them. -/
theorem C40_violated_stale :
    messagesOf c!"a.php" (do
      let s ← startAndOpen [(c!"a.php", c!"<?php new Missing;")] c!"a.php"
      didChange plainHost c!"a.php" [c!"<?php <<<A"] s) =
    some [(0, 10, .text c!"Unresolvable type (false) 'Missing'"), (0, 10, .text c!"Unresolvable type (false) 'Missing'")] := by
  decide +kernel

/-- Another open document whose class extends a class of this one repeats a finding of this one. -/
theorem C40_violated_duplicates :
    messagesOf c!"a.php" (do
      let s ← startAndOpen [(c!"a.php", c!"<?php class A extends Missing {}"),
        (c!"b.php", c!"<?php class B extends A {} $b = new B; $b->c;")] c!"a.php"
      let s ← didOpen plainHost c!"b.php" (some c!"<?php class B extends A {} $b = new B; $b->c;") s
      didChange plainHost c!"a.php" [c!"<?php class A extends Missing {}"] s) =
    some [(0, 22, .text c!"Unresolvable type (false) 'Missing'"), (0, 22, .text c!"Unresolvable type (false) 'Missing'")] := by
  decide +kernel

/-- The diagnostics of another open document pile up and are not published again: `b.php` was published with one finding when it
was opened; after `a.php` is changed to define the class it still has the old finding.  -/
theorem C40_violated_other :
    let before : Out Backend := do
      let s ← startAndOpen [(c!"a.php", c!"<?php $a;"), (c!"b.php", c!"<?php new A;")] c!"a.php"
      didOpen plainHost c!"b.php" (some c!"<?php new A;") s
    let after : Out Backend := do
      let s ← before
      didChange plainHost c!"a.php" [c!"<?php class A {}"] s
    messagesOf c!"b.php" before = some [(0, 10, .text c!"Unresolvable type (false) 'A'")] ∧
    messagesOf c!"b.php" after = some [(0, 10, .text c!"Unresolvable type (false) 'A'")] := by
  decide +kernel

/-! ## Symbols of a file and its text -/

namespace Backend

theorem Sound.slot {U : Unicode} {st : Backend} (h : Sound U st) {p : Text} {o : NodeId} (ho : Dict.get? st.files p = some o) :
    o.idx ∈ st.arena.forest.tops.map (·.1.idx) := by
  obtain ⟨v, hv⟩ := h.root p o ho
  have := (Forest.mem_tops (p := none) (f := st.arena.forest) (fun _ e => nomatch e) (c := o) (v := v)).2 hv
  exact List.mem_map.2 ⟨(o, v), this, rfl⟩

theorem Sound.slots {U : Unicode} {st : Backend} (h : Sound U st) {p : Text} {o : NodeId} (ho : Dict.get? st.files p = some o) :
    o.idx ∈ st.arena.forest.idxs := by
  obtain ⟨v, hv⟩ := h.root p o ho
  exact Forest.mem_idxs.2 ⟨o, v, hv.flat, rfl⟩

theorem Sound.apart {U : Unicode} {st : Backend} (h : Sound U st) {p q : Text} {o o' : NodeId} (ho : Dict.get? st.files p = some o)
    (ho' : Dict.get? st.files q = some o') (e : o.idx = o'.idx) : p = q := by
  obtain ⟨v, hv⟩ := h.root p o ho
  obtain ⟨w, hw⟩ := h.root q o' ho'
  obtain ⟨rfl, _⟩ := hv.unique h.arena hw e
  exact h.inj ho ho'

/-- `SameTree` looks at the tree of the file only. -/
theorem SameTree.keep {path : Text} {st st' e : Backend} (h : SameTree path st e) (hf : Dict.get? st'.files path = Dict.get? st.files path)
    (hn : ∀ f, Dict.get? st.files path = some f → st'.arena.forest.node? f.idx = st.arena.forest.node? f.idx) :
    SameTree path st' e := by
  obtain ⟨f, g, v, w, k, k', ρ, h1, h2, h3, h4, h5, h6⟩ := h
  exact ⟨f, g, v, w, k, k', ρ, hf.trans h1, h2, (hn f h1).trans h3, h4, h5, h6⟩

end Backend

/-- The symbols of a file depend on its text only: after any history, indexing a file succeeds if and only if it does in a server
that has seen nothing else, and gives the same tree of symbols, up to the ids.  The other files keep their symbols. -/
theorem C36_text (h : Host) (st : Backend) (hi : Serving h st) (path : Text) (ast : List Node) (range : LspRange) :
    (∀ st', collectSymbols h path ast range st = .ok st' →
      (∃ alone, collectSymbols h path ast range Backend.empty = .ok alone ∧ SameTree path st' alone) ∧
      ∀ p, p ≠ path → Dict.get? st'.files p = Dict.get? st.files p ∧
        ∀ f, Dict.get? st.files p = some f → st'.arena.forest.node? f.idx = st.arena.forest.node? f.idx) ∧
    (∀ alone, collectSymbols h path ast range Backend.empty = .ok alone → ∃ st', collectSymbols h path ast range st = .ok st') := by
  have hs := hi.clean.toSafe.toSound
  have side := collectSymbols_anywhere h path ast range st Backend.empty hs.arena (fun _ => hs.slots) Arena.ok_empty
    (fun _ h => nomatch h)
  constructor
  · intro st' e
    refine ⟨?_, (collectSymbols_others h path ast range st st' hs.arena (fun _ _ => hs.slot) (fun _ _ _ _ => hs.apart) e).2⟩
    rw [e] at side
    cases ha : collectSymbols h path ast range Backend.empty with
    | ok alone =>
      rw [ha] at side
      obtain ⟨_, _, side⟩ := side
      exact ⟨alone, rfl, side⟩
    | panic => rw [ha] at side; exact side.elim
    | deep => rw [ha] at side; exact side.elim
  · intro alone ha
    rw [ha] at side
    cases e : collectSymbols h path ast range st with
    | ok st' => exact ⟨st', rfl⟩
    | panic => rw [e] at side; exact side.elim
    | deep => rw [e] at side; exact side.elim

/-! ## C41 -/

namespace Backend

/-- What a server that has seen nothing else makes of a text; `none` if the text cannot be scanned. -/
def alone (h : Host) (path text : Text) : Out (Option Backend) := do
  match ← sourceToAst h text with
  | none => pure none
  | some (ast, range, errors) =>
    let st ← collectSymbols h path ast range empty
    let _ ← Out.ofOption (diagnosticsOf errors)
    pure (some st)

/-- One step of the loop. -/
private theorem watched_step {h : Host} {st : Backend} (hs : Safe h.U st) (path : Text) (ast : List Node) (range : LspRange) :
    Side (fun _ _ => False) (fun _ st' e' => SameTree path st' e') (Backend.collectSymbols h path ast range st)
      (Backend.collectSymbols h path ast range empty) :=
  collectSymbols_anywhere h path ast range st empty hs.arena (fun _ => hs.toSound.slots) Arena.ok_empty (fun _ h => nomatch h)

/-- Files that are not mentioned keep their symbols. -/
private theorem watched_others {h : Host} : ∀ (events : List (Text × Option Text)) {st st' : Backend}, Safe h.U st →
    Backend.didChangeWatched h events st = .ok st' → st'.opened = st.opened ∧ ∀ p, (∀ x ∈ events, x.1 ≠ p) →
      Dict.get? st'.files p = Dict.get? st.files p ∧
      ∀ f, Dict.get? st.files p = some f → st'.arena.forest.node? f.idx = st.arena.forest.node? f.idx
  | [], _, _, _, e => by
    cases e
    exact ⟨rfl, fun _ _ => ⟨rfl, fun _ _ => rfl⟩⟩
  | (path, disk) :: rest, st, st', hs, e => by
    unfold Backend.didChangeWatched at e
    split at e
    · cases e
      exact ⟨rfl, fun _ _ => ⟨rfl, fun _ _ => rfl⟩⟩
    · obtain ⟨content, h1, e⟩ := Out.bind_eq_ok e
      obtain ⟨p, h2, e⟩ := Out.bind_eq_ok e
      split at e
      · have := watched_others rest hs e
        exact ⟨this.1, fun p hp => this.2 p fun x hx => hp x (List.mem_cons_of_mem _ hx)⟩
      · obtain ⟨st1, h3, e⟩ := Out.bind_eq_ok e
        obtain ⟨ds, h4, e⟩ := Out.bind_eq_ok e
        have hs1 := hs.collectSymbols _ _ _ st1 h3
        have h5 := collectSymbols_others h path _ _ st st1 hs.arena (fun _ _ => hs.toSound.slot) (fun _ _ _ _ => hs.toSound.apart) h3
        have h6 := watched_others rest (st := { st1 with diagnostics := Dict.insert st1.diagnostics path ds }) (hs1.same rfl rfl rfl) e
        refine ⟨h6.1.trans h5.1, fun p hp => ?_⟩
        have h7 := h6.2 p fun x hx => hp x (List.mem_cons_of_mem _ hx)
        have h8 := h5.2 p fun e => hp _ (List.mem_cons_self ..) e.symm
        refine ⟨h7.1.trans h8.1, fun f hf => ?_⟩
        exact (h7.2 f (h8.1.trans hf)).trans (h8.2 f hf)

end Backend

/-- A notification about files none of which is open: every file that is mentioned has, behind it, the symbols of its text on the
disk as of the last mention (if this text can be scanned), as a server would have them that sees this text only.  Files that are not
mentioned keep their symbols.  Missing: open files, see `C41_violated_open`; deleted files, see `C41_violated_deleted`. -/
theorem C41_watched_partial (h : Host) (st st' : Backend) (hi : Serving h st) (events : List (Text × Option Text))
    (closed : ∀ x ∈ events, Dict.get? st.opened x.1 = none) (e : didChangeWatched h events st = .ok st') :
    (∀ before path content after, events = before ++ (path, some content) :: after → (∀ x ∈ after, x.1 ≠ path) →
      ∀ ast range errors, sourceToAst h content = .ok (some (ast, range, errors)) →
      ∃ alone, collectSymbols h path ast range Backend.empty = .ok alone ∧ SameTree path st' alone) ∧
    ∀ p, (∀ x ∈ events, x.1 ≠ p) → Dict.get? st'.files p = Dict.get? st.files p ∧
      ∀ f, Dict.get? st.files p = some f → st'.arena.forest.node? f.idx = st.arena.forest.node? f.idx := by
  refine ⟨?_, (watched_others events hi.clean.toSafe e).2⟩
  have hs := hi.clean.toSafe
  clear hi
  intro before
  induction before generalizing events st with
  | nil =>
    rintro path content after rfl hafter ast range errors hp
    rw [List.nil_append] at e closed
    unfold didChangeWatched at e
    rw [closed _ (List.mem_cons_self ..)] at e
    simp only [Option.isSome_none, Bool.false_eq_true, if_false, Out.ofOption_some, Out.bind_ok, hp] at e
    obtain ⟨st1, h3, e⟩ := Out.bind_eq_ok e
    obtain ⟨ds, h4, e⟩ := Out.bind_eq_ok e
    have hs1 := hs.collectSymbols _ _ _ st1 h3
    have h6 := (watched_others after (st := { st1 with diagnostics := Dict.insert st1.diagnostics path ds }) (hs1.same rfl rfl rfl) e).2 path hafter
    have side := watched_step hs path ast range
    rw [h3] at side
    cases ha : collectSymbols h path ast range Backend.empty with
    | ok alone =>
      rw [ha] at side
      obtain ⟨_, _, side⟩ := side
      exact ⟨alone, rfl, side.keep h6.1 h6.2⟩
    | panic => rw [ha] at side; exact side.elim
    | deep => rw [ha] at side; exact side.elim
  | cons x before ih =>
    rintro path content after rfl hafter ast range errors hp
    obtain ⟨q, disk⟩ := x
    rw [List.cons_append] at e closed
    unfold didChangeWatched at e
    rw [closed _ (List.mem_cons_self ..)] at e
    simp only [Option.isSome_none, Bool.false_eq_true, if_false] at e
    obtain ⟨content', _, e⟩ := Out.bind_eq_ok e
    obtain ⟨p, _, e⟩ := Out.bind_eq_ok e
    split at e
    · exact ih st _ (fun x hx => closed x (List.mem_cons_of_mem _ hx)) e hs path content after rfl hafter ast range errors hp
    · obtain ⟨st1, h3, e⟩ := Out.bind_eq_ok e
      obtain ⟨ds, h4, e⟩ := Out.bind_eq_ok e
      have hs1 := hs.collectSymbols _ _ _ st1 h3
      have h5 := collectSymbols_others h q _ _ st st1 hs.arena (fun _ _ => hs.toSound.slot) (fun _ _ _ _ => hs.toSound.apart) h3
      refine ih _ _ (fun x hx => ?_) e (hs1.same rfl rfl rfl) path content after rfl hafter ast range errors hp
      show Dict.get? st1.opened x.1 = none
      rw [h5.1]
      exact closed x (List.mem_cons_of_mem _ hx)

/-- Such a notification does not crash, if no file is deleted and a server that has seen nothing else would not crash at any of the
texts. -/
theorem C41_alive_partial (h : Host) (st : Backend) (hi : Serving h st) (events : List (Text × Option Text))
    (readable : ∀ x ∈ events, ∃ content r, x.2 = some content ∧ alone h x.1 content = .ok r) :
    ∃ st', didChangeWatched h events st = .ok st' := by
  have hs := hi.clean.toSafe
  clear hi
  induction events generalizing st with
  | nil => exact ⟨st, rfl⟩
  | cons x rest ih =>
    obtain ⟨path, disk⟩ := x
    obtain ⟨content, r, h1, h2⟩ := readable _ (List.mem_cons_self ..)
    dsimp only at h1 h2
    subst h1
    unfold didChangeWatched
    split
    · exact ⟨st, rfl⟩
    · simp only [Out.ofOption_some, Out.bind_ok]
      unfold alone at h2
      obtain ⟨p, h3, h2⟩ := Out.bind_eq_ok h2
      rw [h3]
      simp only [Out.bind_ok]
      split
      · exact ih st (fun x hx => readable x (List.mem_cons_of_mem _ hx)) hs
      · next ast range errors =>
        obtain ⟨st1, h4, h2⟩ := Out.bind_eq_ok h2
        obtain ⟨ds, h5, h2⟩ := Out.bind_eq_ok h2
        have side := watched_step hs path ast range
        rw [h4] at side
        cases ha : collectSymbols h path ast range st with
        | ok st2 =>
          simp only [Out.bind_ok, h5]
          exact ih _ (fun x hx => readable x (List.mem_cons_of_mem _ hx)) ((hs.collectSymbols _ _ _ st2 ha).same rfl rfl rfl)
        | panic => rw [ha] at side; exact side.elim
        | deep => rw [ha] at side; exact side.elim

/-- The names of all symbols of a file. -/
def namesIn (path : Text) : Out Backend → List Text
  | .ok st => ((Dict.get? st.files path).bind fun f => (st.arena.descendants? f).map fun l => l.map fun c => c.2.name).getD []
  | _ => []

/-- A run that meets the hypotheses of both: two files, one of them mentioned twice. -/
example :
    let run : Out Backend := do
      let st ← startWith [(c!"a.php", c!"<?php class A {}"), (c!"b.php", c!"<?php class B {}")]
      didChangeWatched plainHost [(c!"a.php", some c!"<?php function f() {}"), (c!"b.php", some c!"<?php class C { function m() {} }"),
        (c!"a.php", some c!"<?php class D {}")] st
    namesIn c!"a.php" run = [c!"a.php", c!"D", c!"class"] ∧
      namesIn c!"b.php" run = [c!"b.php", c!"C", c!"class", c!"m"] := by
  decide +kernel

/-- The loop ends at the first open file: `b.php` keeps its old symbols, although it is not open. -/
theorem C41_violated_open :
    let run : Out Backend := do
      let st ← startAndOpen [(c!"a.php", c!"<?php class A {}"), (c!"b.php", c!"<?php class B {}")] c!"a.php"
      didChangeWatched plainHost [(c!"a.php", some c!"<?php class A {}"), (c!"b.php", some c!"<?php class C {}")] st
    namesIn c!"b.php" run = [c!"b.php", c!"B", c!"class"] := by
  decide +kernel

/-- A file that was deleted crashes the server. -/
theorem C41_violated_crash :
    (match (do
      let st ← startWith [(c!"a.php", c!"<?php class A {}")]
      didChangeWatched plainHost [(c!"a.php", none)] st : Out Backend) with
    | .panic => true
    | _ => false) = true := by
  decide +kernel

/-- Nothing is ever removed: if the notification succeeds, every file that was indexed is indexed. -/
theorem C41_violated_deleted (h : Host) : ∀ (events : List (Text × Option Text)) (st st' : Backend),
    didChangeWatched h events st = .ok st' → ∀ p, (Dict.get? st.files p).isSome → (Dict.get? st'.files p).isSome
  | [], st, st', e, p, hp => by cases e; exact hp
  | (path, disk) :: rest, st, st', e, p, hp => by
    unfold didChangeWatched at e
    split at e
    · cases e; exact hp
    · obtain ⟨content, _, e⟩ := Out.bind_eq_ok e
      obtain ⟨q, _, e⟩ := Out.bind_eq_ok e
      split at e
      · exact C41_violated_deleted h rest st st' e p hp
      · obtain ⟨st1, h3, e⟩ := Out.bind_eq_ok e
        obtain ⟨ds, _, e⟩ := Out.bind_eq_ok e
        refine C41_violated_deleted h rest _ st' e p ?_
        show (Dict.get? st1.files p).isSome
        unfold collectSymbols at h3
        obtain ⟨c, _, h3⟩ := Out.bind_eq_ok h3
        obtain ⟨st2, h4, h3⟩ := Out.bind_eq_ok h3
        obtain ⟨kids, _, h3⟩ := Out.bind_eq_ok h3
        cases h3
        have hfiles : ∃ r, st2.files = Dict.insert st.files path r := by
          split at h4
          · unfold dropFile at h4
            obtain ⟨_, _, h4⟩ := Out.bind_eq_ok h4
            obtain ⟨_, _, h4⟩ := Out.bind_eq_ok h4
            cases h4
            exact ⟨_, rfl⟩
          · cases h4
            exact ⟨_, rfl⟩
        obtain ⟨r, hr⟩ := hfiles
        show (Dict.get? st2.files p).isSome
        rw [hr, Dict.get?_insert]
        split
        · rfl
        · exact hp

end PhpLs
