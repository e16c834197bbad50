import Verif.Announce
import Verif.Props.CompletionMembers

/-!
# C72: the server does what it announces

The methods that the server announces to the client and those that it implements, and the characters on which the client asks for a
completion.
-/

namespace PhpLs

namespace Announce

/-! ## Specification -/

/-- What the client reads from the capabilities, by the protocol: the methods that it may use. -/
def Announces (c : Capabilities) : Method → Prop
  | .didOpen | .didClose => c.sync.isSome = true
  | .didChange => c.sync = some .full ∨ c.sync = some .incremental
  | .hover => c.hover = true
  | .completion => c.completion.isSome = true
  | .completionResolve => ∃ w, c.completion = some (w, true)
  | .implementation => c.implementation = true
  | .references => c.references = true
  | .rename => c.rename.isSome = true
  | .prepareRename => c.rename = some true
  | .definition => c.definition = true
  | .documentHighlight => c.documentHighlight = true
  | .documentSymbol => c.documentSymbol = true
  | .workspaceSymbol => c.workspaceSymbol = true
  | .executeCommand => c.commands ≠ []
  | .formatting => c.formatting = true
  | .didChangeWorkspaceFolders => c.folderChanges = true
  | _ => False

/-- The client asks for a completion when the character is typed. -/
def Asks (c : Capabilities) (x : Char) : Prop := ∃ w r, c.completion = some (w, r) ∧ [x] ∈ w

/-! ## Proofs -/

theorem initialise_capabilities {h : Host} {root : Option (List (Text × Text))} {st st' : Backend} {c : Capabilities}
    (he : initialise h root st = .ok (st', c)) : c = capabilities := by
  unfold initialise at he
  cases root with
  | none => cases he; rfl
  | some files =>
    change (do let st ← Backend.initWorkspace h files st; pure (st, capabilities)) = _ at he
    cases hw : Backend.initWorkspace h files st with
    | ok st1 => rw [hw] at he; cases he; rfl
    | panic => rw [hw] at he; cases he
    | deep => rw [hw] at he; cases he

/-- **C72**, what is announced, as far as it holds.  Whatever the workspace is: if the server starts, every method that it
announces is implemented, except for commands and changes of the folders. -/
theorem C72_announced_partial {h : Host} {root : Option (List (Text × Text))} {st st' : Backend} {c : Capabilities}
    (he : initialise h root st = .ok (st', c)) (m : Method) (ha : Announces c m) (h1 : m ≠ .executeCommand)
    (h2 : m ≠ .didChangeWorkspaceFolders) : implements m = true := by
  rw [initialise_capabilities he] at ha
  cases m with
  | executeCommand => exact absurd rfl h1
  | didChangeWorkspaceFolders => exact absurd rfl h2
  | prepareRename => exact absurd (show some false = some true from ha) (by decide)
  | _ => first | rfl | exact ha.elim

/-- **C72** violated: the server announces a command and that it wants to know about changes of the folders of the workspace, and
implements neither. -/
theorem C72_violated_commands {h : Host} {root : Option (List (Text × Text))} {st st' : Backend} {c : Capabilities}
    (he : initialise h root st = .ok (st', c)) :
    (Announces c .executeCommand ∧ implements .executeCommand = false) ∧
    (Announces c .didChangeWorkspaceFolders ∧ implements .didChangeWorkspaceFolders = false) := by
  rw [initialise_capabilities he]
  exact ⟨⟨by change capabilities.commands ≠ []; decide, rfl⟩, rfl, rfl⟩

/-- **C72**, what is implemented: everything but the formatter is announced, so that the formatter is never asked. -/
theorem C72_implemented {h : Host} {root : Option (List (Text × Text))} {st st' : Backend} {c : Capabilities}
    (he : initialise h root st = .ok (st', c)) (m : Method) (hm : implements m = true) : Announces c m ↔ m ≠ .formatting := by
  rw [initialise_capabilities he]
  cases m with
  | formatting => exact ⟨fun (ha : false = true) => absurd ha (by decide), fun hn => absurd rfl hn⟩
  | didChange => exact ⟨fun _ => by decide, fun _ => .inl rfl⟩
  | completionResolve => exact ⟨fun _ => by decide, fun _ => ⟨_, rfl⟩⟩
  | _ => first | exact ⟨fun _ => by decide, fun _ => rfl⟩ | cases hm

theorem mem_charRange {a b : Nat} (hb : b ≤ 128) {x : Char} : x ∈ charRange a b ↔ a ≤ x.toNat ∧ x.toNat < b := by
  unfold charRange
  simp only [List.mem_map, List.mem_range]
  constructor
  · rintro ⟨i, hi, rfl⟩
    have hn : ∀ n, n < 128 → (Char.ofNat n).toNat = n := by decide
    have := hn (a + i) (by omega)
    omega
  · intro ⟨h1, h2⟩
    exact ⟨x.toNat - a, by omega, by rw [Nat.add_sub_cancel' h1, Char.ofNat_toNat]⟩

/-- **C72**, the characters on which the client asks for a completion: exactly the letters from `a` to `y`, and five others. -/
theorem C72_triggers {h : Host} {root : Option (List (Text × Text))} {st st' : Backend} {c : Capabilities}
    (he : initialise h root st = .ok (st', c)) (x : Char) :
    Asks c x ↔ ('a'.toNat ≤ x.toNat ∧ x.toNat ≤ 'y'.toNat) ∨ x ∈ c!"$_\\:>" := by
  rw [initialise_capabilities he]
  have h1 : Asks capabilities x ↔ [x] ∈ triggers :=
    ⟨fun ⟨w, r, h1, h2⟩ => by cases h1; exact h2, fun h => ⟨_, _, rfl, h⟩⟩
  have h2 : [x] ∈ (charRange 'a'.toNat 'z'.toNat).map (fun c => [c]) ↔ x ∈ charRange 'a'.toNat 'z'.toNat := by simp
  have h3 : ([x] ∈ [c!"$", c!"_", c!"\\", c!":", c!">"]) ↔ x ∈ c!"$_\\:>" := by
    simp only [List.mem_cons, List.cons.injEq, and_true, List.not_mem_nil]
  have hy : x.toNat < 'z'.toNat ↔ x.toNat ≤ 'y'.toNat := Nat.lt_succ_iff
  rw [h1, triggers, List.mem_append, h2, h3, mem_charRange (by decide), hy]

/-- **C72** violated: the client does not ask for a completion if the name continues with a `z`, a capital letter, a digit or a
character that is not ASCII. -/
theorem C72_violated_names {h : Host} {root : Option (List (Text × Text))} {st st' : Backend} {c : Capabilities}
    (he : initialise h root st = .ok (st', c)) (x : Char)
    (hx : x = 'z' ∨ ('A'.toNat ≤ x.toNat ∧ x.toNat ≤ 'Z'.toNat) ∨ ('0'.toNat ≤ x.toNat ∧ x.toNat ≤ '9'.toNat) ∨ 128 ≤ x.toNat) :
    ¬ Asks c x := by
  rw [C72_triggers he]
  have hs : ∀ y ∈ c!"$_\\:>", y ≠ 'z' ∧ ¬ ('A'.toNat ≤ y.toNat ∧ y.toNat ≤ 'Z'.toNat) ∧
      ¬ ('0'.toNat ≤ y.toNat ∧ y.toNat ≤ '9'.toNat) ∧ ¬ 128 ≤ y.toNat := by
    decide
  have e1 : 'a'.toNat = 97 := rfl
  have e2 : 'y'.toNat = 121 := rfl
  have e3 : 'Z'.toNat = 90 := rfl
  have e4 : '9'.toNat = 57 := rfl
  rintro (h | h)
  · rcases hx with rfl | hx | hx | hx
    · exact absurd h (by decide)
    · omega
    · omega
    · omega
  · obtain ⟨g1, g2, g3, g4⟩ := hs x h
    rcases hx with hx | hx | hx | hx
    · exact g1 hx
    · exact g2 hx
    · exact g3 hx
    · exact g4 hx

/-- A request with a trigger other than a dollar and a colon is answered like one without. -/
theorem completion_trigger {h : Host} {st : Backend} {x : Char} (h1 : x ≠ '$') (h2 : x ≠ ':') (p : Pos) (path : Text) :
    st.completion h (some x) p path = st.completion h none p path := by
  have e1 : (some x = some '$') = (none = some '$') := by simp [h1]
  have e2 : (decide (some x = some ':')) = (decide (none = some ':')) := by simp [h2]
  have hm : ∀ node parent a globals cursor refs, Suggester.membersOfSymbol h (some x) node parent a globals cursor refs =
      Suggester.membersOfSymbol h none node parent a globals cursor refs := by
    intro node parent a globals cursor refs
    unfold Suggester.membersOfSymbol
    rw [e2]
  have hs : ∀ cursor ast a globals refs, Suggester.suggestionsAt h (some x) p cursor ast a globals refs =
      Suggester.suggestionsAt h none p cursor ast a globals refs := by
    intro cursor ast a globals refs
    unfold Suggester.suggestionsAt
    simp only [hm, e1]
  unfold Backend.completion
  simp only [hs]

/-- **C72**, the characters that matter: if the answer to a request depends on the character that was typed, in any state and at
any place, the client is told to ask when it is typed; of a longer trigger this is its first character. -/
theorem C72_distinguished {h h' : Host} {root : Option (List (Text × Text))} {st0 st1 st : Backend} {c : Capabilities}
    (he : initialise h root st0 = .ok (st1, c)) {x : Char} {w : Text} {p : Pos} {path : Text}
    (hx : complete h' st (some (some (x :: w))) p path ≠ complete h' st none p path) : Asks c x := by
  have hx' : x = '$' ∨ x = ':' := by
    by_cases h1 : x = '$'
    · exact .inl h1
    · by_cases h2 : x = ':'
      · exact .inr h2
      · exact absurd (completion_trigger h1 h2 p path) hx
  rw [C72_triggers he]
  rcases hx' with rfl | rfl
  · exact .inr (by decide)
  · exact .inr (by decide)

/-- The dollar and the colon do matter. -/
example : Backend.offers c!"<?php $a = 1;  " ⟨0, 14⟩ (some '$') = .ok (some [c!"$a"]) ∧
    Backend.offers c!"<?php $a = 1;  " ⟨0, 14⟩ none =
      .ok (some [c!"namespace", c!"use", c!"class", c!"function", c!"const", c!"trait", c!"interface"]) := by
  decide +kernel

/-- The number of files that are known after the start. -/
def known (root : Option (List (Text × Text))) : Option Nat :=
  match initialise plainHost root Backend.empty with
  | .ok (st, _) => some st.files.length
  | _ => none

/-- The server starts: without a workspace and with one. -/
example : known none = some 0 ∧ known (some [(c!"a.php", c!"<?php class A {}")]) = some 1 := by decide +kernel

end Announce

end PhpLs
