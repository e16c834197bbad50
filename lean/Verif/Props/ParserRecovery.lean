import Verif.Props.ParserInv
import Verif.Runs

/-!
# C20, C54: recovery from errors and the place of missing tokens

* `ffBefore_eq`, `ffAfter_eq`: the two loops that skip tokens satisfy the equations of the loops in the code.
* `C20_skip`: `error_fast_forward` skips exactly the tokens before the next synchronisation token.  `C20_consume`,
  `C20_end_of_statement`, `C20_statement`: the functions that recover with it leave the tokens from there on.
  `C20_violated_semicolon`, `C20_violated_brace`: other functions skip past one.
* `C54_gap_partial`: a token that is missing between two tokens is reported behind the first one.  `C54_violated_eof`: at the
  end of the file line and column are swapped.  `C54_violated_statement`, `C54_violated_start`: a missing semicolon is
  reported at the next token, or at the start of the file.
-/

namespace PhpLs.Parser

open PhpLs

private theorem run_bind {α β : Type} (p : P α) (k : α → P β) (s : PSt) : (p >>= k) s = P.bind p k s := rfl

/-! ## The loops -/

private theorem ffBeforeOn_toks (stop : List TT) (t : List Token) : ∀ (l : List Token) (s : PSt),
    ffBeforeOn stop l { s with toks := t } = ffBeforeOn stop l s
  | [], s => rfl
  | k :: r, s => by
    unfold ffBeforeOn
    split
    · rfl
    · split
      · exact ffBeforeOn_toks stop t r { s with docs := k :: s.docs }
      · split
        · exact ffBeforeOn_toks stop t r s
        · split
          · rfl
          · split
            · rfl
            · next rg _ => exact ffBeforeOn_toks stop t r { s with endPrev := rg }

private theorem ffAfterOn_toks (stop : List TT) (t : List Token) : ∀ (l : List Token) (s : PSt),
    ffAfterOn stop l { s with toks := t } = ffAfterOn stop l s
  | [], s => rfl
  | k :: r, s => by
    unfold ffAfterOn
    split
    · rfl
    · next rg _ =>
      dsimp only
      split
      · exact ffAfterOn_toks stop t r { s with endPrev := rg, docs := k :: s.docs }
      · split
        · exact ffAfterOn_toks stop t r { s with endPrev := rg }
        · split
          · rfl
          · exact ffAfterOn_toks stop t r { s with endPrev := rg }

/-- `ffBefore` is the loop `while let Some(next) = self.peek() { if ff_to contains next.t { break } self.next(); }`. -/
theorem ffBefore_eq (stop : List TT) (s : PSt) :
    ffBefore stop s = (do
      match ← peek with
      | none => pure ()
      | some k => if stop.contains k.t then pure () else do
        let _ ← next
        ffBefore stop : P Unit) s := by
  suffices h : ∀ (l : List Token) (s : PSt), ffBeforeOn stop l s =
      (match (peekOn l s).1 with
      | none => (pure () : P Unit)
      | some k => if stop.contains k.t then pure () else P.bind next fun _ => ffBefore stop) (peekOn l s).2 from
    h s.toks s
  intro l
  induction l with
  | nil => intro s; rfl
  | cons k r ih =>
    intro s
    rw [ffBeforeOn, peekOn]
    by_cases h1 : k.t = .eof
    · simp only [if_pos h1]
      rfl
    · simp only [if_neg h1]
      by_cases h2 : k.t = .multilineComment
      · simp only [if_pos h2]
        exact ih _
      · simp only [if_neg h2]
        by_cases h3 : isTrivia k = true
        · simp only [if_pos h3]
          exact ih _
        · simp only [if_neg h3]
          by_cases h4 : stop.contains k.t = true
          · simp only [if_pos h4]
            rfl
          · simp only [if_neg h4]
            unfold P.bind next
            dsimp only
            rw [nextOn]
            cases k.range with
            | none => rfl
            | some rg =>
              simp only [if_neg h2, if_neg h3]
              exact (ffBeforeOn_toks stop r r { s with endPrev := rg }).symm

/-- `ffAfter` is the loop `while let Some(next) = self.next() { if ff_to contains next.t { break } }`. -/
theorem ffAfter_eq (stop : List TT) (s : PSt) :
    ffAfter stop s = (do
      match ← next with
      | none => pure ()
      | some k => if stop.contains k.t then pure () else ffAfter stop : P Unit) s := by
  suffices h : ∀ (l : List Token) (s : PSt), ffAfterOn stop l s = P.bind (nextOn l) (fun a =>
      match a with
      | none => (pure () : P Unit)
      | some k => if stop.contains k.t then pure () else ffAfter stop) s from h s.toks s
  intro l
  induction l with
  | nil => intro s; rfl
  | cons k r ih =>
    intro s
    unfold P.bind
    rw [ffAfterOn, nextOn]
    cases k.range with
    | none => rfl
    | some rg =>
      dsimp only
      by_cases h2 : k.t = .multilineComment
      · simp only [if_pos h2]
        exact ih _
      · simp only [if_neg h2]
        by_cases h3 : isTrivia k = true
        · simp only [if_pos h3]
          exact ih _
        · simp only [if_neg h3]
          by_cases h4 : stop.contains k.t = true
          · simp only [if_pos h4]
            rfl
          · simp only [if_neg h4]
            exact (ffAfterOn_toks stop r r { s with endPrev := rg }).symm

/-! ## C20 -/

/-- The synchronisation points: semicolon, closing brace, opening tag. -/
def Sync : TT → Prop
  | .semicolon | .closeCurly | .scriptStartRegular | .scriptStartEcho | .scriptStartShort => True
  | _ => False

instance (t : TT) : Decidable (Sync t) := by
  unfold Sync
  split <;> infer_instance

/-- The tokens `rest` are what is left of `toks` behind a skip: nothing that was skipped is a synchronisation point, and it ends at
one, at the end of the tokens, or behind an end-of-file marker. -/
def Skipped (toks rest : List Token) : Prop :=
  ∃ gone, toks = gone ++ rest ∧ (∀ k ∈ gone, ¬ Sync k.t) ∧
    ((∃ k r, rest = k :: r ∧ Sync k.t) ∨ rest = [] ∨ ∃ g k, gone = g ++ [k] ∧ k.t = .eof)

private theorem sync_iff (t : TT) : syncSet.contains t = true ↔ Sync t := by
  cases t <;> decide

private theorem ff_skip : ∀ (l : List Token) (s s' : PSt), ffBeforeOn syncSet l s = .ok () s' →
    Skipped l s'.toks ∧ s'.errors = s.errors ∧ s'.ctx = s.ctx
  | [], s, s', h => by
    cases h
    exact ⟨⟨[], rfl, (fun _ h => nomatch h), .inr (.inl rfl)⟩, rfl, rfl⟩
  | k :: r, s, s', h => by
    have more : ∀ t : PSt, t.errors = s.errors → t.ctx = s.ctx → ¬ Sync k.t → ffBeforeOn syncSet r t = .ok () s' →
        Skipped (k :: r) s'.toks ∧ s'.errors = s.errors ∧ s'.ctx = s.ctx := by
      intro t e1 e2 hk ht
      obtain ⟨⟨gone, h1, h2, h3⟩, h4, h5⟩ := ff_skip r t s' ht
      refine ⟨⟨k :: gone, by rw [h1]; rfl, fun x hx => ?_, ?_⟩, h4.trans e1, h5.trans e2⟩
      · rcases List.mem_cons.1 hx with rfl | hx
        · exact hk
        · exact h2 x hx
      · rcases h3 with h3 | h3 | ⟨g, y, h3, h6⟩
        · exact .inl h3
        · exact .inr (.inl h3)
        · exact .inr (.inr ⟨k :: g, y, by rw [h3]; rfl, h6⟩)
    unfold ffBeforeOn at h
    by_cases he : k.t = .eof
    · rw [if_pos he] at h
      cases h
      refine ⟨⟨[k], rfl, fun x hx => ?_, .inr (.inr ⟨[], k, rfl, he⟩)⟩, rfl, rfl⟩
      rw [List.mem_singleton.1 hx, he]
      exact fun h => h
    · rw [if_neg he] at h
      by_cases hm : k.t = .multilineComment
      · rw [if_pos hm] at h
        refine more { s with docs := k :: s.docs } rfl rfl ?_ h
        rw [hm]
        exact fun h => h
      · rw [if_neg hm] at h
        by_cases ht : isTrivia k = true
        · rw [if_pos ht] at h
          refine more s rfl rfl ?_ h
          intro hs
          unfold isTrivia at ht
          rw [Bool.or_eq_true, beq_iff_eq, beq_iff_eq] at ht
          rcases ht with ht | ht <;> rw [ht] at hs <;> exact hs
        · rw [if_neg ht] at h
          by_cases hc : syncSet.contains k.t = true
          · rw [if_pos hc] at h
            cases h
            exact ⟨⟨[], rfl, (fun _ h => nomatch h), .inl ⟨k, r, rfl, (sync_iff _).1 hc⟩⟩, rfl, rfl⟩
          · rw [if_neg hc] at h
            have hk : ¬ Sync k.t := fun e => hc ((sync_iff _).2 e)
            cases hr : k.range with
            | none => rw [hr] at h; cases h
            | some rg =>
              rw [hr] at h
              exact more { s with endPrev := rg } rfl rfl hk h

/-- `error_fast_forward` skips the tokens before the next synchronisation point, and no others.  It does not report anything. -/
theorem C20_skip (s s' : PSt) (h : errorFastForward s = .ok () s') :
    Skipped s.toks s'.toks ∧ s'.errors = s.errors ∧ s'.ctx = s.ctx := ff_skip s.toks s s' h

/-- What `peek` drops. -/
private theorem peekOn_skip : ∀ (l : List Token) (s : PSt), ∃ gone, l = gone ++ (peekOn l s).2.toks ∧ (∀ k ∈ gone, ¬ Sync k.t) ∧
    (∀ k, (peekOn l s).1 = some k → ∃ r, (peekOn l s).2.toks = k :: r) ∧
    ((peekOn l s).1 = none → (peekOn l s).2.toks = [] ∨ ∃ g k, gone = g ++ [k] ∧ k.t = .eof) ∧
    (peekOn l s).2.endPrev = s.endPrev ∧ (peekOn l s).2.errors = s.errors ∧ (peekOn l s).2.eof = s.eof
  | [], s => ⟨[], rfl, (fun _ h => nomatch h), (fun _ h => nomatch h), fun _ => .inl rfl, rfl, rfl, rfl⟩
  | k :: r, s => by
    unfold peekOn
    have more : ∀ t : PSt, t.endPrev = s.endPrev → t.errors = s.errors → t.eof = s.eof → ¬ Sync k.t →
        ∃ gone, k :: r = gone ++ (peekOn r t).2.toks ∧ (∀ k ∈ gone, ¬ Sync k.t) ∧
        (∀ k, (peekOn r t).1 = some k → ∃ r', (peekOn r t).2.toks = k :: r') ∧
        ((peekOn r t).1 = none → (peekOn r t).2.toks = [] ∨ ∃ g k, gone = g ++ [k] ∧ k.t = .eof) ∧
        (peekOn r t).2.endPrev = s.endPrev ∧ (peekOn r t).2.errors = s.errors ∧ (peekOn r t).2.eof = s.eof := by
      intro t e1 e2 e3 hk
      obtain ⟨gone, h1, h2, h3, h4, h5, h6, h7⟩ := peekOn_skip r t
      refine ⟨k :: gone, by rw [List.cons_append, ← h1], fun x hx => ?_, h3, fun hn => ?_, h5.trans e1, h6.trans e2, h7.trans e3⟩
      · rcases List.mem_cons.1 hx with rfl | hx
        · exact hk
        · exact h2 x hx
      · rcases h4 hn with h4 | ⟨g, y, h4, h8⟩
        · exact .inl h4
        · exact .inr ⟨k :: g, y, by rw [h4]; rfl, h8⟩
    by_cases he : k.t = .eof
    · rw [if_pos he]
      refine ⟨[k], rfl, fun x hx => ?_, (fun _ h => nomatch h), fun _ => .inr ⟨[], k, rfl, he⟩, rfl, rfl, rfl⟩
      rw [List.mem_singleton.1 hx, he]
      exact fun h => h
    · rw [if_neg he]
      by_cases hm : k.t = .multilineComment
      · rw [if_pos hm]
        refine more _ rfl rfl rfl ?_
        rw [hm]
        exact fun h => h
      · rw [if_neg hm]
        by_cases ht : isTrivia k = true
        · rw [if_pos ht]
          refine more s rfl rfl rfl ?_
          intro hs
          unfold isTrivia at ht
          rw [Bool.or_eq_true, beq_iff_eq, beq_iff_eq] at ht
          rcases ht with ht | ht <;> rw [ht] at hs <;> exact hs
        · rw [if_neg ht]
          exact ⟨[], rfl, (fun _ h => nomatch h), fun x hx => ⟨r, by cases hx; rfl⟩, (fun h => nomatch h), rfl, rfl, rfl⟩

private theorem Skipped.after {l m r : List Token} {gone : List Token} (h1 : l = gone ++ m) (h2 : ∀ k ∈ gone, ¬ Sync k.t)
    (h : Skipped m r) : Skipped l r := by
  obtain ⟨g, h3, h4, h5⟩ := h
  refine ⟨gone ++ g, by rw [h1, h3, List.append_assoc], fun k hk => ?_, ?_⟩
  · rcases List.mem_append.1 hk with hk | hk
    · exact h2 k hk
    · exact h4 k hk
  · rcases h5 with h5 | h5 | ⟨g', y, h5, h6⟩
    · exact .inl h5
    · exact .inr (.inl h5)
    · exact .inr (.inr ⟨gone ++ g', y, by rw [h5, List.append_assoc], h6⟩)

private theorem takeOrMissing_wrong (f : Token → Bool) (s : PSt) (x : Token) (hx : (peekOn s.toks s).1 = some x) (wrong : f x = false) :
    takeOrMissing f s = .ok (Token.missing (peekOn s.toks s).2.endPrev.end, true) (peekOn s.toks s).2 := by
  unfold takeOrMissing
  simp only [run_bind, P.bind, peek]
  rw [hx]
  exact congrFun (if_neg (by rw [wrong]; exact Bool.false_ne_true)) _

private theorem takeOrMissing_end (f : Token → Bool) (s : PSt) (hx : (peekOn s.toks s).1 = none) :
    takeOrMissing f s = .ok (Token.missing (peekOn s.toks s).2.eof, true) (peekOn s.toks s).2 := by
  unfold takeOrMissing
  simp only [run_bind, P.bind, peek]
  rw [hx]

/-- `consume` of a token that is not there: the diagnostic is added, and the tokens before the next synchronisation point are
skipped. -/
theorem C20_consume (t : TT) (s s' : PSt) (k : Token) (h : consume t s = .ok k s')
    (wrong : ∀ x, (peekOn s.toks s).1 = some x → x.t ≠ t) :
    Skipped s.toks s'.toks ∧ s'.errors = s.errors ++ [.wrongToken [t] k] := by
  obtain ⟨gone, h1, h2, _, _, _, h6, _⟩ := peekOn_skip s.toks s
  unfold consume at h
  simp only [run_bind, P.bind] at h
  cases hp : (peekOn s.toks s).1 with
  | none =>
    rw [takeOrMissing_end _ s hp] at h
    dsimp only at h
    rw [if_pos rfl] at h
    simp only [run_bind, P.bind] at h
    cases hf : errorFastForward (peekOn s.toks s).2 with
    | ok u s1 =>
      rw [hf] at h
      cases h
      have := C20_skip _ _ hf
      exact ⟨this.1.after h1 h2, by show s1.errors ++ _ = _; rw [this.2.1, h6]⟩
    | err e s1 => rw [hf] at h; cases h
    | panic => rw [hf] at h; cases h
    | diverge x => rw [hf] at h; cases h
  | some x =>
    have hx : (x.t == t) = false := by
      rw [beq_eq_false_iff_ne]
      exact wrong x hp
    rw [takeOrMissing_wrong _ s x hp hx] at h
    dsimp only at h
    rw [if_pos rfl] at h
    simp only [run_bind, P.bind] at h
    cases hf : errorFastForward (peekOn s.toks s).2 with
    | ok u s1 =>
      rw [hf] at h
      cases h
      have := C20_skip _ _ hf
      exact ⟨this.1.after h1 h2, by show s1.errors ++ _ = _; rw [this.2.1, h6]⟩
    | err e s1 => rw [hf] at h; cases h
    | panic => rw [hf] at h; cases h
    | diverge x => rw [hf] at h; cases h

/-- `consume_end_of_statement` without a semicolon or closing tag: likewise, with the token that is there in the diagnostic. -/
theorem C20_end_of_statement (s s' : PSt) (h : consumeEndOfStatement s = .ok () s') (x : Token) (hx : (peekOn s.toks s).1 = some x)
    (wrong : x.t ≠ .semicolon) (open' : x.t ≠ .scriptEnd) :
    Skipped s.toks s'.toks ∧ s'.errors = s.errors ++ [.wrongToken [.semicolon, .scriptEnd] x] := by
  obtain ⟨gone, h1, h2, _, _, _, h6, _⟩ := peekOn_skip s.toks s
  unfold consumeEndOfStatement at h
  simp only [run_bind, P.bind, takeOr, peek] at h
  rw [hx] at h
  dsimp only at h
  have e : (x.t == .semicolon) = false := by
    rw [beq_eq_false_iff_ne]
    exact wrong
  simp only [e, Bool.false_eq_true, if_false] at h
  simp only [Pure.pure, P.pure, Bool.false_eq_true, if_false, if_neg open', run_bind, P.bind] at h
  cases hf : errorFastForward (peekOn s.toks s).2 with
  | ok u s1 =>
    rw [hf] at h
    cases h
    have := C20_skip _ _ hf
    exact ⟨this.1.after h1 h2, by show s1.errors ++ _ = _; rw [this.2.1, h6]⟩
  | err e s1 => rw [hf] at h; cases h
  | panic => rw [hf] at h; cases h
  | diverge x => rw [hf] at h; cases h

/-- A statement that fails: its diagnostic is added, it leaves no node, and the parser goes on at the next synchronisation point
behind the place where the statement stopped reading. -/
theorem C20_statement (r : Rec) (stmts nodes : List Node) (s s1 s' : PSt) (e : Err) (fails : r.statement s = .err e s1)
    (h : statementInto r stmts s = .ok nodes s') :
    nodes = stmts ∧ s'.errors = s1.errors ++ [e] ∧ Skipped s1.toks s'.toks := by
  unfold statementInto P.catchErr at h
  rw [fails] at h
  simp only [run_bind, P.bind, pushErr] at h
  cases hf : errorFastForward { s1 with errors := s1.errors ++ [e] } with
  | ok u s2 =>
    rw [hf] at h
    cases h
    have := C20_skip _ _ hf
    exact ⟨rfl, this.2.1, this.1⟩
  | err e s1 => rw [hf] at h; cases h
  | panic => rw [hf] at h; cases h
  | diverge x => rw [hf] at h; cases h

/-- The first state in which a run ended. -/
private def stateOf {α : Type} : Res α → Option (List TT × Nat)
  | .ok _ s => some (s.toks.map (·.t), s.errors.length)
  | .err _ s => some (s.toks.map (·.t), s.errors.length)
  | _ => none

/-- `if ( $a b ) ; }` with the closing parenthesis expected behind `$a`: the hypotheses of `C20_consume` hold, the tokens up to the
semicolon are skipped. -/
example : stateOf (consume .closeParenthesis { new [] with toks :=
      [⟨8, 0, .identifier, some c!"b", some 8⟩, ⟨10, 0, .closeParenthesis, none, some 10⟩, ⟨11, 0, .semicolon, none, some 11⟩,
        ⟨12, 0, .closeCurly, none, some 12⟩] }) =
    some ([.semicolon, .closeCurly], 1) := by
  decide

/-- A statement that fails: `$a = ) ;`. -/
example : stateOf ((knot (DocBlock.docNode Unicode.ascii) 40).statement { new [] with ctx := .script, toks :=
      [⟨0, 0, .variable, some c!"a", some 0⟩, ⟨3, 0, .assignment, none, some 3⟩, ⟨5, 0, .closeParenthesis, none, some 5⟩,
        ⟨6, 0, .identifier, some c!"b", some 6⟩, ⟨8, 0, .semicolon, none, some 8⟩] }) =
    some ([.identifier, .semicolon], 0) := by
  decide +kernel

/-- The places of the statements of a text, and the number of diagnostics. -/
def placesOf (text : Text) : Option (List (Option NodeRange) × Nat) :=
  match Backend.sourceToAst plainHost text with
  | .ok (some (ast, _, errs)) => some (ast.map Node.range, errs.length)
  | _ => none

/-- In `$a = 1 +; f(2); g(3);` the operand is missing.  The function that reads operands takes the semicolon, so that the parser
skips to the next one: the statement `f(2);` is lost.  What is left is its semicolon and `g(3);`. -/
theorem C20_violated_semicolon :
    placesOf c!"<?php $a = 1 +; f(2); g(3);" = some ([some ⟨20, 0, 21, 0⟩, some ⟨22, 0, 26, 0⟩], 1) := by
  decide +kernel

/-- In `class A { ) } f(2); g(3);` the stray parenthesis makes the parser skip past the closing brace and everything behind it. -/
theorem C20_violated_brace :
    placesOf c!"<?php class A { ) } f(2); g(3);" = some ([some ⟨6, 0, 0, 31⟩], 5) := by
  decide +kernel

/-! ## C54 -/

private theorem next_prev {p : Token} {s : PSt} : ∀ (l : List Token) (s1 : PSt), nextOn l s1 = .ok (some p) s →
    p.range = some s.endPrev
  | [], s1, h => by cases h
  | y :: l, s1, h => by
    unfold nextOn at h
    cases hr : y.range with
    | none => rw [hr] at h; cases h
    | some rg =>
      rw [hr] at h
      dsimp only at h
      split at h
      · exact next_prev l _ h
      · split at h
        · exact next_prev l _ h
        · cases h
          exact hr

/-- A token that is missing between `p`, which was read, and a token that is there is reported at the end of `p`, whatever comments
and line breaks are between them.  Missing: the end of the file, see `C54_violated_eof`; missing semicolons, see
`C54_violated_statement`. -/
theorem C54_gap_partial (t : TT) (s0 s s' : PSt) (p k : Token) (read : next s0 = .ok (some p) s) (h : consume t s = .ok k s')
    (x : Token) (hx : (peekOn s.toks s).1 = some x) (wrong : x.t ≠ t) :
    k.t = .missing ∧ p.end = some (k.col, k.line) ∧ s'.errors = s.errors ++ [.wrongToken [t] k] := by
  have herr := (C20_consume t s s' k h fun y hy => by rw [hx] at hy; cases hy; exact wrong).2
  obtain ⟨gone, h1, h2, _, _, h5, h6, _⟩ := peekOn_skip s.toks s
  have hprev := next_prev _ s0 read
  have hk : k = Token.missing s.endPrev.end := by
    unfold consume at h
    simp only [run_bind, P.bind] at h
    have hxt : (x.t == t) = false := by
      rw [beq_eq_false_iff_ne]
      exact wrong
    rw [takeOrMissing_wrong _ s x hx hxt] at h
    dsimp only at h
    rw [if_pos rfl] at h
    simp only [run_bind, P.bind] at h
    cases hf : errorFastForward (peekOn s.toks s).2 with
    | ok u s1 => rw [hf] at h; cases h; rw [h5]
    | err e s1 => rw [hf] at h; cases h
    | panic => rw [hf] at h; cases h
    | diverge x => rw [hf] at h; cases h
  refine ⟨by rw [hk]; rfl, ?_, herr⟩
  rw [range_eq_some hprev, hk]
  rfl

/-- The same for a missing name. -/
theorem C54_identifier_partial (s0 s s' : PSt) (p k : Token) (read : next s0 = .ok (some p) s)
    (h : consumeIdentifier s = .ok k s') (x : Token) (hx : (peekOn s.toks s).1 = some x) (wrong : x.isIdentifier = false) :
    k.t = .missing ∧ p.end = some (k.col, k.line) ∧ s'.errors = s.errors ++ [.missingIdentifier k] := by
  obtain ⟨gone, h1, h2, _, _, h5, h6, _⟩ := peekOn_skip s.toks s
  have hprev := next_prev _ s0 read
  unfold consumeIdentifier at h
  simp only [run_bind, P.bind] at h
  rw [takeOrMissing_wrong _ s x hx wrong] at h
  dsimp only at h
  rw [if_pos rfl] at h
  cases h
  refine ⟨rfl, ?_, by show (peekOn s.toks s).2.errors ++ _ = _; rw [h6]⟩
  rw [range_eq_some hprev, h5]
  rfl

/-- At the end of the tokens the place of a missing token is that of the last token with line and column swapped: it is right
only on the diagonal. -/
theorem C54_violated_eof (t : TT) (tokens : List Token) (last : Token) (hl : tokens.getLast? = some last) (s s' : PSt) (k : Token)
    (run : s.eof = (new tokens).eof) (h : consume t s = .ok k s') (atEnd : (peekOn s.toks s).1 = none) :
    (k.col, k.line) = (last.line, last.col) ∧ s'.errors = s.errors ++ [.wrongToken [t] k] ∧
      ((k.line = last.line ∧ k.col = last.col) ↔ last.line = last.col) := by
  have herr := (C20_consume t s s' k h fun y hy => by rw [atEnd] at hy; cases hy).2
  obtain ⟨gone, h1, h2, _, _, h5, h6, h7⟩ := peekOn_skip s.toks s
  have hk : k = Token.missing s.eof := by
    unfold consume at h
    simp only [run_bind, P.bind] at h
    rw [takeOrMissing_end _ s atEnd] at h
    dsimp only at h
    rw [if_pos rfl] at h
    simp only [run_bind, P.bind] at h
    cases hf : errorFastForward (peekOn s.toks s).2 with
    | ok u s1 => rw [hf] at h; cases h; rw [h7]
    | err e s1 => rw [hf] at h; cases h
    | panic => rw [hf] at h; cases h
    | diverge x => rw [hf] at h; cases h
  have he : s.eof = (last.line, last.col) := by
    rw [run]
    unfold new
    rw [hl]
  refine ⟨by rw [hk, he]; rfl, herr, ?_⟩
  rw [hk, he]
  show last.col = last.line ∧ last.line = last.col ↔ _
  constructor
  · exact fun h => h.2
  · exact fun h => ⟨h.symm, h⟩

end PhpLs.Parser

namespace PhpLs

/-- The places (line, column) and texts of the diagnostics of a text. -/
def reportsOf (text : Text) : Option (List (Nat × Nat × Message)) :=
  match Backend.sourceToAst plainHost text with
  | .ok (some (_, _, errs)) => (Backend.diagnosticsOf errs).map fun l => l.map fun d => (d.range.start.line, d.range.start.character, d.message)
  | _ => none

/-- A run in which the hypotheses of `C54_gap_partial` are met: the parenthesis behind `while` is missing, and this is where it is
reported. -/
example : reportsOf c!"<?php while foo {}" =
    some [(0, 11, .wrongToken .missing [.openParenthesis]), (0, 17, .unexpectedToken .closeCurly)] := by
  decide +kernel

/-- The text has one line; its missing parenthesis is reported in line 12 (and the missing body in line 0, column 0). -/
theorem C54_violated_eof_text : reportsOf c!"<?php if ($a" =
    some [(12, 0, .wrongToken .missing [.closeParenthesis]), (0, 0, .endOfFile)] := by
  decide +kernel

/-- The semicolon is missing in line 0 behind `f(1)`; it is reported two lines below, at the next statement. -/
theorem C54_violated_statement : reportsOf c!"<?php f(1)\n\n  g(2);" = some [(2, 2, .wrongToken .identifier [.semicolon])] := by
  decide +kernel

/-- The semicolon is missing at the end of the file; this is reported at the start of the file. -/
theorem C54_violated_start : reportsOf c!"<?php\nf(1)" = some [(0, 0, .endOfFile)] := by
  decide +kernel

end PhpLs
