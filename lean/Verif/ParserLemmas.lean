import Verif.Grammar

/-!
# Lemmas about the token helpers of the parser

Running the monad step by step, and each helper of `Verif/ParserCore.lean` in terms of `peekOn`.
-/

namespace PhpLs.Parser

open PhpLs

theorem bind_run {α β : Type} (p : P α) (k : α → P β) (s : PSt) : (p >>= k) s = match p s with
    | .ok a s' => k a s'
    | .err e s' => .err e s'
    | .panic => .panic
    | .diverge site => .diverge site := rfl

theorem pure_run {α : Type} (a : α) (s : PSt) : (pure a : P α) s = .ok a s := rfl
theorem fail_run {α : Type} (e : Err) (s : PSt) : (P.fail e : P α) s = .err e s := rfl
theorem panic_run {α : Type} (s : PSt) : (P.panic : P α) s = .panic := rfl
theorem diverge_run {α : Type} (x : Site) (s : PSt) : (P.diverge x : P α) s = .diverge x := rfl
theorem pushErr_run (e : Err) (s : PSt) : pushErr e s = .ok () { s with errors := s.errors ++ [e] } := rfl
theorem setCtx_run (c : Ctx) (s : PSt) : setCtx c s = .ok () { s with ctx := c } := rfl
theorem getCtx_run (s : PSt) : getCtx s = .ok s.ctx s := rfl

theorem ite_run {α : Type} (c : Prop) [Decidable c] (p q : P α) (s : PSt) :
    (if c then p else q) s = if c then p s else q s := by split <;> rfl

theorem bind_ok {α β : Type} {p : P α} {k : α → P β} {s s' : PSt} {a : α} (h : p s = .ok a s') :
    (p >>= k) s = k a s' := by rw [bind_run, h]
theorem bind_err {α β : Type} {p : P α} {k : α → P β} {s s' : PSt} {e : Err} (h : p s = .err e s') :
    (p >>= k) s = .err e s' := by rw [bind_run, h]
theorem bind_panic {α β : Type} {p : P α} {k : α → P β} {s : PSt} (h : p s = .panic) :
    (p >>= k) s = .panic := by rw [bind_run, h]
theorem bind_diverge {α β : Type} {p : P α} {k : α → P β} {s : PSt} {x : Site} (h : p s = .diverge x) :
    (p >>= k) s = .diverge x := by rw [bind_run, h]

/-- Tokens that `peek` and `next` return. -/
def solid (k : Token) : Bool :=
  !(k.t == .lineComment || k.t == .linebreak || k.t == .multilineComment)

theorem solid_iff {k : Token} : solid k = true ↔ k.t ≠ .lineComment ∧ k.t ≠ .linebreak ∧ k.t ≠ .multilineComment := by
  simp [solid, and_assoc]

/-- What `peek` returns is in front of the remaining tokens, and is neither a comment, a line break nor the end. -/
theorem peekOn_some : ∀ {l : List Token} {s s' : PSt} {k : Token}, peekOn l s = (some k, s') →
    (∃ r, s'.toks = k :: r) ∧ solid k = true ∧ k.t ≠ .eof
  | [], s, s', k, h => by simp [peekOn] at h
  | a :: r, s, s', k, h => by
    unfold peekOn at h
    split at h
    · simp at h
    · rename_i h1
      split at h
      · exact peekOn_some h
      · rename_i h2
        split at h
        · exact peekOn_some h
        · rename_i h3
          cases h
          refine ⟨⟨r, rfl⟩, ?_, h1⟩
          simp only [isTrivia, Bool.or_eq_true, beq_iff_eq, not_or] at h3
          exact solid_iff.2 ⟨h3.1, h3.2, h2⟩

/-- Taking the token that is in front. -/
def takeFront (k : Token) (s : PSt) (a : α) : Res α :=
  match k.range with
  | none => .panic
  | some rg => .ok a { s with endPrev := rg, toks := s.toks.tail }

theorem next_front {s : PSt} {k : Token} {r : List Token} (ht : s.toks = k :: r) (hk : solid k = true) :
    next s = takeFront k s (some k) := by
  obtain ⟨h1, h2, h3⟩ := solid_iff.1 hk
  unfold next takeFront
  rw [ht]
  unfold nextOn
  cases k.range with
  | none => rfl
  | some rg => simp [h1, h2, h3, isTrivia]

theorem nextUnwrap_front {s : PSt} {k : Token} {r : List Token} (ht : s.toks = k :: r) (hk : solid k = true) :
    nextUnwrap s = takeFront k s k := by
  unfold nextUnwrap
  rw [bind_run, next_front ht hk]
  unfold takeFront
  cases k.range <;> rfl

/-- A state in which `peek` changes nothing. -/
theorem peekOn_front {s : PSt} {k : Token} {r : List Token} (ht : s.toks = k :: r) (hk : solid k = true)
    (he : k.t ≠ .eof) : peekOn s.toks s = (some k, s) := by
  obtain ⟨h1, h2, h3⟩ := solid_iff.1 hk
  obtain ⟨a, b, c, d, e, f⟩ := s
  subst ht
  unfold peekOn
  simp [h1, h2, h3, he, isTrivia]

section
variable {f g : Token → Bool} {s s' : PSt} {k : Token}

theorem peek_run (s : PSt) : peek s = .ok (peekOn s.toks s).1 (peekOn s.toks s).2 := rfl

theorem takeIf_none (h : peekOn s.toks s = (none, s')) : takeIf f s = .ok none s' := by
  unfold takeIf
  rw [bind_ok (peek_run s), h]
  rfl

theorem takeIf_no (h : peekOn s.toks s = (some k, s')) (hf : f k = false) : takeIf f s = .ok none s' := by
  unfold takeIf
  rw [bind_ok (peek_run s), h]
  simp only [hf]
  rfl

theorem takeIf_yes (h : peekOn s.toks s = (some k, s')) (hf : f k = true) :
    takeIf f s = takeFront k s' (some k) := by
  obtain ⟨⟨r, hr⟩, hk, -⟩ := peekOn_some h
  unfold takeIf
  rw [bind_ok (peek_run s), h]
  simp only [hf, if_true]
  rw [bind_run, nextUnwrap_front hr hk]
  unfold takeFront
  cases k.range <;> rfl

theorem takeOr_none (h : peekOn s.toks s = (none, s')) : takeOr f s = .ok none s' := by
  unfold takeOr
  rw [bind_ok (peek_run s), h]
  rfl

theorem takeOr_no (h : peekOn s.toks s = (some k, s')) (hf : f k = false) :
    takeOr f s = .ok (some (k, false)) s' := by
  unfold takeOr
  rw [bind_ok (peek_run s), h]
  simp only [hf]
  rfl

theorem takeOr_yes (h : peekOn s.toks s = (some k, s')) (hf : f k = true) :
    takeOr f s = takeFront k s' (some (k, true)) := by
  obtain ⟨⟨r, hr⟩, hk, -⟩ := peekOn_some h
  unfold takeOr
  rw [bind_ok (peek_run s), h]
  simp only [hf, if_true]
  rw [bind_run, nextUnwrap_front hr hk]
  unfold takeFront
  cases k.range <;> rfl

theorem takeOrMissing_none (h : peekOn s.toks s = (none, s')) :
    takeOrMissing f s = .ok (Token.missing s'.eof, true) s' := by
  unfold takeOrMissing
  rw [bind_ok (peek_run s), h]

theorem takeOrMissing_no (h : peekOn s.toks s = (some k, s')) (hf : f k = false) :
    takeOrMissing f s = .ok (Token.missing s'.endPrev.end, true) s' := by
  unfold takeOrMissing
  rw [bind_ok (peek_run s), h]
  dsimp only
  exact (congrFun (if_neg (by simp [hf])) s')

theorem takeOrMissing_yes (h : peekOn s.toks s = (some k, s')) (hf : f k = true) :
    takeOrMissing f s = takeFront k s' (k, false) := by
  obtain ⟨⟨r, hr⟩, hk, -⟩ := peekOn_some h
  unfold takeOrMissing
  rw [bind_ok (peek_run s), h]
  refine (congrFun (if_pos hf) s').trans ?_
  rw [bind_run, nextUnwrap_front hr hk]
  unfold takeFront
  cases k.range <;> rfl

theorem nextIs_none (h : peekOn s.toks s = (none, s')) : nextIs f s = .ok false s' := by
  unfold nextIs
  rw [bind_ok (peek_run s), h]
  rfl

theorem nextIs_some (h : peekOn s.toks s = (some k, s')) : nextIs f s = .ok (f k) s' := by
  unfold nextIs
  rw [bind_ok (peek_run s), h]
  rfl

theorem lookahead_none (h : takeIf f s = .ok none s') : lookahead f g s = .ok none s' := by
  unfold lookahead
  rw [bind_ok h]
  rfl

theorem lookahead_panic (h : takeIf f s = .panic) : lookahead f g s = .panic := by
  unfold lookahead
  rw [bind_panic h]

theorem lookahead_some {b : Bool} {s'' : PSt} (h : takeIf f s = .ok (some k) s') (hn : nextIs g s' = .ok b s'') :
    lookahead f g s = if b then .ok (some k) s'' else .ok none { s'' with toks := k :: s''.toks } := by
  unfold lookahead
  rw [bind_ok h]
  dsimp only
  rw [bind_ok hn]
  cases b <;> rfl

theorem hereDocBody_no {s' : PSt} (h : nextOneOf [.hereDocStart] s = .ok false s') : hereDocBody s = .ok none s' := by
  unfold hereDocBody
  rw [bind_ok h]
  rfl

theorem hereDocBody_yes (h : peekOn s.toks s = (some k, s')) (ht : k.t = .hereDocStart) :
    hereDocBody s = match k.range with
      | none => .panic
      | some rg =>
        match next { s' with endPrev := rg, toks := s'.toks.tail } with
        | .ok (some k) s => .ok (some k) s
        | .ok none _ => .panic
        | .err e s => .err e s
        | .panic => .panic
        | .diverge x => .diverge x := by
  obtain ⟨⟨r, hr⟩, hk, he⟩ := peekOn_some h
  unfold hereDocBody
  have h1 : nextOneOf [.hereDocStart] s = .ok true s' := by
    unfold nextOneOf
    rw [nextIs_some h]
    simp [ht]
  rw [bind_ok h1]
  simp only [if_true]
  have h2 : takeOr (fun k => k.t == TT.hereDocStart) s' = takeFront k s' (some (k, true)) :=
    takeOr_yes (peekOn_front hr hk he) (by simp [ht])
  unfold consumeOrFfAfter
  rw [bind_run, bind_run, h2]
  unfold takeFront
  cases k.range with
  | none => rfl
  | some rg =>
    dsimp only
    simp only [if_true, pure_run]
    unfold nextUnwrap
    rw [bind_run, bind_run]
    generalize next _ = x
    rcases x with ⟨_ | a, b⟩ | _ | _ | _ <;> rfl

end

end PhpLs.Parser
