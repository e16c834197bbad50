import Verif.GrammarTerm2

/-!
# Termination of statements and of the recursion of the parser

`scriptStatement`, `statement` and the recursion `knot`: `knot doc n` does not run out of fuel on `N` tokens if
`3 * N + 3 ≤ n`.
-/

namespace PhpLs.Parser

open PhpLs

variable {V : Env} {N : Nat} {r : Rec} {s : PSt}

theorem wp_dispatch {attributes : List Node} {t : TT} (hr : RT V N r) (h : s.toks.length < N + 1)
    (hE : ∀ (b : Nat) (s : PSt), s.toks.length < N + 1 → wp V (r.expression b) (fun _ => s.toks.length) (s.toks.length - 1) s)
    (ht : front s.toks = some t) :
    wp V (dispatch r attributes t) (fun _ => s.toks.length) (s.toks.length - 1) s := by
  have hf : fr [t] s = 1 := fr_of ht (by simp)
  have hpos := fr_pos_len (ts := [t]) (s := s)
  refine wp_ready fun hready => ?_
  unfold dispatch
  split
  · have hc := c_zero hready hf (.inl rfl)
    exact wp_monoC (wp_inlineHtml hr (by omega) hc) (by omega) (by omega)
  · refine wp_same (popDoc_same ..) ?_
    intro doc s0 hs0 _
    have hfr : fr [.kwFunction] s0 = 1 := by unfold fr at hf ⊢; rw [hs0]; exact hf
    have hlen : s0.toks.length = s.toks.length := by rw [hs0]
    exact wp_monoC (wp_namedFunction hr (by omega)) (by omega) (by omega)
  · exact wp_monoC (wp_namespaceStatement hr (by omega)) (by omega) (by omega)
  · exact wp_monoC (wp_useCase hr (by omega)) (by omega) (by omega)
  · exact wp_monoC (wp_constStatement hr (by omega)) (by omega) (by omega)
  · obtain ⟨a, l, h1, h2⟩ := front_token hready hf
    have hx := V.globals h2 h1
    exact wp_monoC (wp_globalVariables hr (by omega) hx) (by omega) (by omega)
  · exact wp_monoC (wp_echoStatement hr (by omega)) (by omega) (by omega)
  · exact wp_monoC (wp_printStatement hr (by omega)) (by omega) (by omega)
  · exact wp_monoC (wp_gotoStatement (N := N) (by omega)) (by omega) (by omega)
  · exact wp_monoC (wp_returnStatement hr (by omega)) (by omega) (by omega)
  · exact wp_monoC (wp_throwStatement hr (by omega)) (by omega) (by omega)
  · exact wp_monoC (wp_classStatement hr (by omega) (.inr hf)) (by omega) (by omega)
  · exact wp_monoC (wp_traitStatement hr (by omega) hf) (by omega) (by omega)
  · exact wp_monoC (wp_abstractClassStatement hr (by omega) hf) (by omega) (by omega)
  · exact wp_monoC (wp_finalClassStatement hr (by omega) hf) (by omega) (by omega)
  · exact wp_monoC (wp_interface hr (by omega) hf) (by omega) (by omega)
  · exact wp_monoC (wp_whileStatement hr (by omega)) (by omega) (by omega)
  · exact wp_monoC (wp_doWhileStatement hr (by omega)) (by omega) (by omega)
  · exact wp_monoC (wp_forStatement hr (by omega)) (by omega) (by omega)
  · exact wp_monoC (wp_foreachStatement hr (by omega)) (by omega) (by omega)
  · exact wp_monoC (wp_ifStatement hr (by omega)) (by omega) (by omega)
  · exact wp_monoC (wp_block hr (by omega)) (by omega) (by omega)
  · exact wp_monoC (wp_switchStatement hr (by omega)) (by omega) (by omega)
  · wp_auto
  · exact wp_monoC (wp_breakStatement hr (by omega)) (by omega) (by omega)
  · exact wp_monoC (wp_breakStatement hr (by omega)) (by omega) (by omega)
  · exact wp_monoC (wp_tryCatchStatement hr (by omega)) (by omega) (by omega)
  · exact wp_monoC (wp_declareStatement (N := N) (by omega)) (by omega) (by omega)
  · exact wp_monoC (wp_unsetStatement hr (by omega)) (by omega) (by omega)
  · exact wp_monoC (wp_dieStatement hr (by omega)) (by omega) (by omega)
  · exact wp_monoC (wp_defineStatement hr (by omega)) (by omega) (by omega)
  · exact wp_defaultStatement hr h hE

theorem wp_scriptStatement (hr : RT V N r) (h : s.toks.length < N + 1)
    (hE : ∀ (b : Nat) (s : PSt), s.toks.length < N + 1 → wp V (r.expression b) (fun _ => s.toks.length) (s.toks.length - 1) s) :
    wp V (scriptStatement r) (fun _ => s.toks.length) (s.toks.length - 1) s := by
  unfold scriptStatement
  refine wp_bindC (wp_attributesBlock hr h) (by omega) ?_
  intro as s1 _ _ h1
  refine wp_peek ?_ ?_
  · wp_auto
  · intro a s2 _ _ h2 _ _ hf
    exact wp_monoC (wp_dispatch hr (by omega) hE hf) (by omega) (by omega)

theorem wp_reopen : wp V reopen (fun _ => s.toks.length + 1) 0 s := by
  unfold reopen
  wp_auto

macro_rules | `(tactic| wp_spec) => `(tactic| with_reducible exact wp_reopen)

theorem wp_statementF (hr : RT V N r) (h : s.toks.length < N + 1)
    (hE : ∀ (b : Nat) (s : PSt), s.toks.length < N + 1 → wp V (r.expression b) (fun _ => s.toks.length) (s.toks.length - 1) s) :
    wp V (statementF r) (fun _ => s.toks.length) (s.toks.length - V.c) s := by
  have hcle := V.c_le
  have hs : ∀ s' : PSt, s'.toks.length ≤ s.toks.length →
      wp V (scriptStatement r) (fun _ => s.toks.length) (s.toks.length - V.c) s' := by
    intro s' hl
    exact wp_monoC (wp_scriptStatement hr (by omega) hE) (by omega) (by omega)
  refine wp_ready fun hready => ?_
  unfold statementF
  refine wp_bind (q1 := fun x => if x = .out then (if s.ctx = .out then s.toks.length + 1 else 0) else s.toks.length + 1)
    (m1 := 0) ?_ (Nat.zero_le _) ?_
  · intro hr
    refine ⟨hr, List.Sublist.refl _, ?_⟩
    cases hc : s.ctx <;> simp
  · rintro (_ | _) s1 _ _ hl
    · simp at hl
      rcases Nat.lt_or_ge V.c 1 with hc | hc
      · have hc : V.c = 0 := by omega
        have hl1 : s1.toks.length ≤ s.toks.length := by
          split at hl <;> omega
        refine wp_takeOr ?_ ?_ ?_
        · intro s2 _ _ h2; exact hs s2 (by omega)
        · intro a s2 _ _ h2 _
          simp only [if_true]
          refine wp_bindC wp_setScript (Nat.zero_le _) ?_
          intro _ s3 _ _ h3
          refine wp_peek ?_ ?_
          · wp_auto
          · intro _ s4 _ _ _ _ _ _
            exact hs s4 (by omega)
        · intro a s2 _ _ h2 _ _ _ hf
          refine wp_ite (fun h => by cases h) fun _ => wp_ite ?_ ?_
          · intro ha
            have hf' : fr [.scriptStartEcho] s2 = 1 := fr_of (hf.trans (congrArg some ha)) (by rfl)
            wp_auto
          · wp_auto
      · have hc : V.c = 1 := by omega
        have := hready.2 hc
        rw [this] at hl
        simp at hl
    · exact hs s1 (by simp at hl; omega)

/-- The recursion does not run out of fuel: on `len` tokens, `call` needs `3 * len + 2` levels, `expression` `3 * len + 3` and
`statement` `3 * len + 4`. -/
theorem knot_wp (doc : Token → Option Node) (n : Nat) :
    (∀ s : PSt, 3 * s.toks.length + 2 ≤ n → wp V (knot doc n).call (fun _ => s.toks.length) (s.toks.length - 1) s) ∧
    (∀ b, ∀ s : PSt, 3 * s.toks.length + 3 ≤ n →
      wp V ((knot doc n).expression b) (fun _ => s.toks.length) (s.toks.length - 1) s) ∧
    (∀ s : PSt, 3 * s.toks.length + 4 ≤ n →
      wp V (knot doc n).statement (fun _ => s.toks.length) (s.toks.length - V.c) s) := by
  induction n with
  | zero => exact ⟨fun s h => by omega, fun b s h => by omega, fun s h => by omega⟩
  | succ n ih =>
    obtain ⟨ihc, ihe, ihs⟩ := ih
    have hfuel : (knot doc n).fuel = n := by cases n <;> rfl
    have hrt : ∀ L, 3 * L + 1 ≤ n → RT V L (knot doc n) := fun L hL =>
      ⟨by omega, fun {b s} h => ihe b s (by omega), fun {s} h => ihs s (by omega), fun {s} h => ihc s (by omega)⟩
    refine ⟨fun s h => ?_, fun b s h => ?_, fun s h => ?_⟩
    · exact wp_callF (hrt s.toks.length (by omega)) (by omega)
    · exact wp_expressionF (hrt s.toks.length (by omega)) (by omega) (fun s' h' => ihc s' (by omega))
    · exact wp_statementF (hrt s.toks.length (by omega)) (by omega) (fun b s' h' => ihe b s' (by omega))

/-- The entry points satisfy `RT`. -/
theorem knot_RT (doc : Token → Option Node) {n N : Nat} (h : 3 * N + 1 ≤ n) : RT V N (knot doc n) := by
  obtain ⟨hc, he, hs⟩ := knot_wp (V := V) doc n
  have hfuel : (knot doc n).fuel = n := by cases n <;> rfl
  exact ⟨by omega, fun {b s} h => he b s (by omega), fun {s} h => hs s (by omega), fun {s} h => hc s (by omega)⟩

/-- The loop of `Parser::ast` ends if the tokens have no closing and no echo tags and the parser is in the script. -/
theorem wp_astLoop (hr : RT V N r) (h : s.toks.length < N) :
    wp V (astLoop r) (fun _ => s.toks.length + 1) 0 s := by
  have hc := V.c_le
  unfold astLoop
  rcases Nat.lt_or_ge V.c 1 with h1 | h1
  · obtain ⟨hx, _, _⟩ := V.loops (by omega)
    wp_auto
  · wp_auto

end PhpLs.Parser
