import Verif.Props.Programs
import Verif.Props.Declarations

/-!
# C66 and C67 together: from the tokens of a well-formed file to its symbols

* `C67_symbols`: when the server is told that a file on the disk changed, and the new text is a program of the grammar, then nothing
  is reported for the file and its symbols are the declarations of the tree that the grammar gives the text.
-/

namespace PhpLs.Syntax

open PhpLs PhpLs.Parser PhpLs.Declared PhpLs.Backend

/-- **C67 and C66**: the symbols of a well-formed file are the declarations the grammar finds in it. -/
theorem C67_symbols {h : Host} {path t : Text} {s : Scanner.St} {ns : List Node} {st st' : Backend} (hs : Serving h st)
    (ht : Scanner.scan h.U t = .ok s) (hp : Program (DocBlock.docNode h.U) (strip s.tokens) ns)
    (ho : Dict.get? st.opened path = none) (hr : didChangeWatched h [(path, some t)] st = .ok st') :
    (Dict.get? st'.diagnostics path = some []) ∧
    ∃ root file kids n, Dict.get? st'.files path = some root ∧ st'.arena.forest.node? root.idx = some (root, file, kids) ∧
      factOf file =
        { kind := .file, name := path, place := some (spot ⟨0, 0, s.col, s.line⟩), namePlace := spot ⟨0, 0, s.col, s.line⟩ } ∧
      Many none ns n (outlineOf kids) := by
  unfold didChangeWatched at hr
  rw [ho] at hr
  simp only [Option.isSome_none, Bool.false_eq_true, ↓reduceIte, Out.ofOption, bind, Out.bind] at hr
  cases hq : sourceToAst h t with
  | panic => rw [hq] at hr; cases hr
  | deep => rw [hq] at hr; cases hr
  | ok r =>
    have he := C67_server ht hp hq
    subst he
    rw [hq] at hr
    cases hc : collectSymbols h path ns (getRange ⟨0, 0, s.col, s.line⟩) st with
    | panic => simp only [hc] at hr; cases hr
    | deep => simp only [hc] at hr; cases hr
    | ok st1 =>
      simp only [hc] at hr
      cases hr
      refine ⟨by simp [Dict.get?_insert], ?_⟩
      exact (C66_served hs hc).1

/-- The hypotheses hold for the sample of C67 in a server that has just started. -/
example : ∃ s n ns st', Scanner.scan plainHost.U sample = .ok s ∧
    Program (DocBlock.docNode plainHost.U) (strip s.tokens) (n :: ns) ∧ Serving plainHost Backend.empty ∧
    didChangeWatched plainHost [(c!"f", some sample)] Backend.empty = .ok st' := by
  obtain ⟨n, ns, h, _⟩ := sample_program
  have h1 : (match Scanner.scan plainHost.U sample with | .ok _ => true | _ => false) = true := by decide +kernel
  have h2 : (match didChangeWatched plainHost [(c!"f", some sample)] Backend.empty with | .ok _ => true | _ => false) = true := by
    decide +kernel
  split at h1
  · rename_i s hs
    split at h2
    · rename_i st' hst
      have e : sampleTokens = strip s.tokens := by
        unfold sampleTokens
        rw [show Scanner.scan Unicode.ascii sample = .ok s from hs]
      exact ⟨s, n, ns, st', hs, e ▸ h, .start, hst⟩
    · cases h2
  · cases h1

end PhpLs.Syntax
