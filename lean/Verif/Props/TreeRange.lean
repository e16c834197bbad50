import Verif.GrammarRange

/-!
# Ranges of syntax trees (C52): crashes

`Node::range` panics if it asks for the first or last element of an empty list.  `Void` are the three kinds of nodes the parser
builds with such a list: a `case` without statements, `static $a;` and `use ;` in a class.  Whatever the text, these are the
only reasons why the range of a node of a parsed tree is undefined.
-/

namespace PhpLs.Parser

open PhpLs PhpLs.Suggester

/-! ## Doc comments -/

/-- Types that have a last part. -/
def Typed (l : List TypeRef) : Prop := ∀ t ∈ l, t.kind ≠ []

private theorem typed_parts {m : Bool} {ps : List Token} {t : TypeRef} (h : DocBlock.parts m ps = some t) : t.kind ≠ [] := by
  unfold DocBlock.parts at h
  split at h
  · cases h
  · rename_i hp
    cases h
    simpa using hp

private theorem typed_collectTypeRef (U : Unicode) (b : Bool) : ∀ (fuel : Nat) (ps : List Token) (s : DocBlock.DSt) (t : TypeRef)
    (s' : DocBlock.DSt), DocBlock.collectTypeRef U b fuel ps s = some (some t, s') → t.kind ≠ []
  | 0, _, _, _, _, h => by cases h
  | fuel + 1, ps, s, t, s', h => by
    rw [DocBlock.collectTypeRef] at h
    simp only at h
    split at h
    · exact typed_collectTypeRef U b fuel _ _ t s' h
    · split at h
      · split at h
        · cases h' : DocBlock.parts true _ <;> rw [h'] at h <;> cases h
          exact typed_parts h'
        · exact typed_collectTypeRef U b fuel _ _ t s' h
      · cases h' : DocBlock.parts false _ <;> rw [h'] at h <;> cases h
        exact typed_parts h'

private theorem typed_collectTypes (U : Unicode) (b : Bool) : ∀ (fuel : Nat) (acc : List TypeRef) (s : DocBlock.DSt)
    (l : List TypeRef) (s' : DocBlock.DSt), Typed acc → DocBlock.collectTypes U b fuel acc s = some (l, s') → Typed l
  | 0, _, _, _, _, _, h => by cases h
  | fuel + 1, acc, s, l, s', ha, h => by
    rw [DocBlock.collectTypes] at h
    cases hc : DocBlock.collectTypeRef U b (s.chars.length + 1) [] s with
    | none => rw [hc] at h; cases h
    | some x =>
      obtain ⟨t, s1⟩ := x
      rw [hc] at h
      cases t with
      | none => cases h; exact ha
      | some t =>
        have ht := typed_collectTypeRef U b _ _ _ _ _ hc
        have ha' : Typed (acc ++ [t]) := fun x hx => by
          rcases List.mem_append.1 hx with h | h
          · exact ha x h
          · cases List.mem_singleton.1 h; exact ht
        simp only [Option.bind_eq_bind, Option.bind_some] at h
        split at h
        · exact typed_collectTypes U b fuel _ _ l s' ha' h
        · cases h; exact ha'

private theorem typed_directive {U : Unicode} {b n : Bool} {s s' : DocBlock.DSt} {l : List TypeRef} {k : Token} {d : Text}
    (h : DocBlock.directive U b n s = some (l, k, d, s')) : Typed l := by
  unfold DocBlock.directive at h
  simp only [Option.bind_eq_bind, Option.bind_eq_some_iff] at h
  obtain ⟨⟨l', s1⟩, hc, h⟩ := h
  have := typed_collectTypes U b _ _ _ _ _ (fun _ h => by cases h) hc
  simp only [Option.some.injEq, Prod.mk.injEq] at h
  rw [← h.1]
  exact this

theorem fit_docCommentProperty {k : Token} {l : List TypeRef} {d : Text} (h : Typed l) :
    Fit (.docCommentProperty k (DocBlock.someTypes l) d) := by
  refine fit_intro (fun _ hg _ => ?_) (fun c hc => by simp [Node.children] at hc)
  good_simp at hg
  unfold DocBlock.someTypes at hg ⊢
  cases hl : l.getLast? with
  | none =>
    cases List.getLast?_eq_none_iff.1 hl
    simp only [List.isEmpty_nil, if_true, Node.range]
    exact tokenRange_ne.2 hg.1
  | some t =>
    have hm := List.mem_of_getLast? hl
    have he : l.isEmpty = false := by cases l with | nil => cases hl | cons => rfl
    simp only [he, Bool.false_eq_true, if_false, Node.range, rangeTypes] at hg ⊢
    have ht := h t hm
    cases hk : t.kind.getLast? with
    | none => exact absurd (List.getLast?_eq_none_iff.1 hk) ht
    | some k' =>
      simp only [hl, hk, Option.bind_eq_bind, Option.bind_some]
      refine rangeTT_ne.2 ?_
      have h2 := (good_list _).1 ((good_some _).1 hg.2) t hm
      exact h2 k' (List.mem_of_getLast? hk)

private def AccFit (a : DocBlock.Acc) : Prop := FitL a.varDocs ∧ FitL a.properties

private theorem atSign_fit {U : Unicode} {a a' : DocBlock.Acc} {s s' : DocBlock.DSt} (h : DocBlock.atSign U a s = some (a', s'))
    (ha : AccFit a) : AccFit a' := by
  unfold DocBlock.atSign at h
  simp only at h
  split at h
  · simp only [Option.bind_eq_bind, Option.bind_eq_some_iff] at h
    obtain ⟨⟨l, k, d, s1⟩, hd, h⟩ := h
    cases h; exact ha
  · split at h
    · simp only [Option.bind_eq_bind, Option.bind_eq_some_iff] at h
      obtain ⟨⟨l, k, d, s1⟩, hd, h⟩ := h
      cases h; exact ha
    · split at h
      · simp only [Option.bind_eq_bind, Option.bind_eq_some_iff] at h
        obtain ⟨⟨l, k, d, s1⟩, hd, h⟩ := h
        cases h; exact ⟨fitL_snoc ha.1 fit_docCommentVar, ha.2⟩
      · split at h
        · cases h; exact ha
        · split at h
          · simp only [Option.bind_eq_bind, Option.bind_eq_some_iff] at h
            obtain ⟨⟨l, k, d, s1⟩, hd, h⟩ := h
            cases h; exact ⟨ha.1, fitL_snoc ha.2 (fit_docCommentProperty (typed_directive hd))⟩
          · cases h; exact ha

private theorem scanLoop_fit (U : Unicode) : ∀ (fuel : Nat) (a a' : DocBlock.Acc) (s : DocBlock.DSt),
    DocBlock.scanLoop U fuel a s = some a' → AccFit a → AccFit a'
  | 0, _, _, _, h, _ => by cases h
  | fuel + 1, a, a', s, h, ha => by
    rw [DocBlock.scanLoop] at h
    split at h
    · cases h; exact ha
    · split at h
      · simp only [Option.bind_eq_bind, Option.bind_eq_some_iff] at h
        obtain ⟨⟨a1, s1⟩, h1, h⟩ := h
        exact scanLoop_fit U fuel _ _ _ h (atSign_fit h1 ha)
      · split at h
        · exact scanLoop_fit U fuel _ _ _ h ha
        · exact scanLoop_fit U fuel _ _ _ h ha

theorem fit_docComment {k : Token} {r p v q : List Node} {d : Text} {b : Bool} (h1 : FitL v) (h2 : FitL q) :
    Fit (.docComment k r d b p v q) := by
  refine fit_intro (fun _ hg _ => ?_) (fun c hc => ?_)
  · good_simp at hg
    simp only [Node.range]
    exact tokenRange_ne.2 hg.1
  · simp only [Node.children] at hc
    exact fitL_append h1 h2 c hc

theorem docNode_fit (U : Unicode) (k : Token) (n : Node) (h : DocBlock.docNode U k = some n) : Fit n ∧ FitL (varDocs n) := by
  unfold DocBlock.docNode at h
  simp only [Option.bind_eq_bind, Option.bind_eq_some_iff] at h
  obtain ⟨l, hl, a, ha, h⟩ := h
  cases h
  have := scanLoop_fit U _ _ _ _ ha ⟨fitL_nil, fitL_nil⟩
  exact ⟨fit_docComment this.1 this.2, this.1⟩

/-! ## The recursion -/

theorem fit_p_statementF {r : Rec} (hr : RFit r) : Ret (statementF r) Fit := by
  unfold statementF
  fit_auto

theorem fit_p_astLoop {r : Rec} (hr : RFit r) : Ret (astLoop r) FitL := by
  unfold astLoop
  fit_auto

theorem knot_fit (U : Unicode) : ∀ n, RFit (knot (DocBlock.docNode U) n)
  | 0 => ⟨docNode_fit U, (fun _ _ _ _ h => nomatch h), (fun _ _ _ h => nomatch h), (fun _ _ _ h => nomatch h)⟩
  | n + 1 =>
    have hr := knot_fit U n
    ⟨docNode_fit U, fun b => fit_p_expressionF b hr, fit_p_statementF hr, fit_p_callF hr⟩

/-- The statements the parser returns are fit. -/
theorem ast_fit {U : Unicode} {n : Nat} {tokens : List Token} {nodes : List Node} {s : PSt}
    (h : ast U n tokens = .ok nodes s) : FitL nodes := by
  unfold ast at h
  split at h
  · cases h; exact fitL_nil
  · exact fit_p_astLoop (knot_fit U n) _ _ _ h

/-- All tokens of the trees of a scanned text have an end. -/
theorem ast_ends {U : Unicode} {t : Text} {sc : Scanner.St} (hs : Scanner.scan U t = .ok sc)
    (hh : ∀ k ∈ sc.tokens, ¬ (k.t = .hereDocEnd ∧ k.label = some [])) {n : Nat} {nodes : List Node} {s : PSt}
    (h : ast U n sc.tokens = .ok nodes s) : Good Ends nodes := by
  unfold ast at h
  split at h
  · cases h; good_simp
  · have := inv_of_rel (grammarFn_ast (invLR (DocBlock.docNode U) (new sc.tokens)) _ _ (knot_inv n))
    rw [h] at this
    exact good_mono (fun _ h => h.2 (safe_of_scan U t sc hs hh)) this.2

/-! ## C52 -/

/-- **C52**, crashes: in the syntax tree of any text (without an empty heredoc marker, on which parsing itself crashes), the
range of a node is undefined only if the node is or contains a `case` without statements, a `static` statement without a value
or an empty `use` in a class. -/
theorem C52_crashes_only_at_voids {U : Unicode} {t : Text} {sc : Scanner.St} (hs : Scanner.scan U t = .ok sc)
    (hh : ∀ k ∈ sc.tokens, ¬ (k.t = .hereDocEnd ∧ k.label = some [])) {n : Nat} {nodes : List Node} {s : PSt}
    (h : ast U n sc.tokens = .ok nodes s) {stmt m : Node} (hst : stmt ∈ nodes) (hb : Below stmt m) (hr : m.range = none) :
    ∃ v, Below m v ∧ Void v := by
  apply Classical.byContradiction
  intro hn
  exact ast_fit h stmt hst ((good_list nodes).1 (ast_ends hs hh h) stmt hst) m hb (fun v hv hv' => hn ⟨v, hv, hv'⟩) hr

/-- **C52**, crashes: the range of such a node is always undefined. -/
theorem C52_voids_crash {m : Node} (h : Void m) : m.range = none := by
  unfold Void at h
  split at h
  · rfl
  · rfl
  · rfl
  · exact h.elim

theorem Below.trans {a b c : Node} (h : Below a b) (h2 : Below b c) : Below a c := by
  induction h with
  | here => exact h2
  | down hc _ ih => exact .down hc (ih h2)

/-- **C52**, crashes: a position lookup in the syntax tree of a text comes to an end if the tree contains none of these nodes. -/
theorem C52_lookup_ends {U : Unicode} {t : Text} {sc : Scanner.St} (hs : Scanner.scan U t = .ok sc)
    (hh : ∀ k ∈ sc.tokens, ¬ (k.t = .hereDocEnd ∧ k.label = some [])) {n : Nat} {nodes : List Node} {s : PSt}
    (h : ast U n sc.tokens = .ok nodes s) (hc : ∀ stmt ∈ nodes, Clean stmt) (p : Pos) {fuel : Nat}
    (hf : ∀ stmt ∈ nodes, sizeOf stmt < fuel) : ∃ o, findIn p fuel nodes = .ok o := by
  refine C46_ends_partial p fuel nodes hf fun stmt hst m hb hr => ?_
  obtain ⟨v, hv, hvoid⟩ := C52_crashes_only_at_voids hs hh h hst hb hr
  exact hc stmt hst v (Below.trans hb hv) hvoid

/-- `Void` as a test. -/
def isVoid : Node → Bool
  | .switchBranch _ [] => true
  | .staticVariablesStatement _ [] => true
  | .useTraitStatement _ [] => true
  | _ => false

/-- A search for such nodes. -/
def voidFree : Nat → Node → Bool
  | 0, _ => false
  | fuel + 1, n => !isVoid n && n.children.all (voidFree fuel)

theorem clean_of_voidFree : ∀ (fuel : Nat) (n : Node), voidFree fuel n = true → Clean n
  | 0, _, h => by cases h
  | fuel + 1, n, h => by
    simp only [voidFree, Bool.and_eq_true, List.all_eq_true] at h
    intro m hb hv
    cases hb with
    | here =>
      have h1 := h.1
      unfold Void at hv
      split at hv
      · cases h1
      · cases h1
      · cases h1
      · exact hv
    | down hc hb => exact clean_of_voidFree fuel _ (h.2 _ hc) m hb hv

/-- A text that meets the hypotheses of `C52_lookup_ends`: a doc comment, a trait with an alias, a `static` and a `switch`. -/
example : ∃ sc nodes s, Scanner.scan Unicode.ascii
      c!"<?php /** @property int $p */ class A { use T { b as c; } } if ($x) { static $a = 1; } switch ($y) { case 1: break; }" = .ok sc ∧
    (∀ k ∈ sc.tokens, ¬ (k.t = .hereDocEnd ∧ k.label = some [])) ∧ ast Unicode.ascii 60 sc.tokens = .ok nodes s ∧
    nodes.length = 3 ∧ ∀ stmt ∈ nodes, Clean stmt := by
  have h : (match Scanner.scan Unicode.ascii
      c!"<?php /** @property int $p */ class A { use T { b as c; } } if ($x) { static $a = 1; } switch ($y) { case 1: break; }" with
    | .ok sc => sc.tokens.all (fun k => !(k.t == .hereDocEnd && k.label == some [])) && (match ast Unicode.ascii 60 sc.tokens with
      | .ok nodes _ => nodes.length == 3 && nodes.all (voidFree 60)
      | _ => false)
    | _ => false) = true := by decide +kernel
  split at h
  · rename_i sc hsc
    rw [Bool.and_eq_true, List.all_eq_true] at h
    obtain ⟨h1, h2⟩ := h
    split at h2
    · rename_i nodes s hn
      simp only [Bool.and_eq_true, beq_iff_eq, List.all_eq_true] at h2
      refine ⟨sc, nodes, s, hsc, fun k hk hx => ?_, hn, h2.1, fun x hx => clean_of_voidFree 60 x (h2.2 x hx)⟩
      have := h1 k hk
      simp [hx.1, hx.2] at this
    · cases h2
  · cases h

/-- Does looking up a position in the text crash? -/
def lookupCrashes (t : Text) (p : Pos) : Bool :=
  match Backend.sourceToAst plainHost t with
  | .ok (some (nodes, _)) => (match findIn p 60 nodes with
    | .panic => true
    | _ => false)
  | _ => false

/-- **C52, violated**: a `case` without statements at the end of a `switch`, a `static` variable without a value and an empty
`use` in a class make every lookup of a position inside crash. -/
theorem C52_violated_crash :
    lookupCrashes c!"<?php switch ($x) { case 1: break; case 3: }" ⟨0, 41⟩ = true ∧
    lookupCrashes c!"<?php if ($x) { static $a; }" ⟨0, 20⟩ = true ∧
    lookupCrashes c!"<?php class A { use ; }" ⟨0, 20⟩ = true := by decide +kernel

/-- The ranges of the nodes of a text, from the statements down to `depth`. -/
def rangesIn : Nat → List Node → List (Option NodeRange)
  | 0, _ => []
  | depth + 1, l => l.flatMap fun n => n.range :: rangesIn depth n.children

/-- The same for a text. -/
def rangesOf (depth : Nat) (t : Text) : List (Option NodeRange) :=
  match Backend.sourceToAst plainHost t with
  | .ok (some (nodes, _)) => rangesIn depth nodes
  | _ => []

/-- **C52, violated**: the range of a parent does not cover its children.  (1) the condition of a `match` is in front of the
range of the `match`; (2) the value of a `case` is in front of the range of the `case`; (3) a named parameter is at line 1,
column 1 of every file; (4) the type of a parameter by reference is in front of it; (5) the length of a string is counted in
bytes, so its range goes beyond the call it is an argument of. -/
theorem C52_violated_cover :
    rangesOf 3 c!"<?php match ($x) { 1 => 2 };" =
      [some ⟨17, 0, 27, 0⟩, some ⟨17, 0, 27, 0⟩, some ⟨13, 0, 15, 0⟩, some ⟨19, 0, 25, 0⟩] ∧
    rangesOf 4 c!"<?php switch ($x) { case 1: break; }" =
      [some ⟨6, 0, 36, 0⟩, some ⟨14, 0, 16, 0⟩, some ⟨18, 0, 36, 0⟩, some ⟨28, 0, 33, 0⟩, some ⟨25, 0, 26, 0⟩,
        some ⟨28, 0, 33, 0⟩] ∧
    rangesOf 4 c!"<?php f(a: 1);" =
      [some ⟨6, 0, 13, 0⟩, some ⟨6, 0, 13, 0⟩, some ⟨1, 1, 1, 1⟩, some ⟨11, 0, 12, 0⟩, some ⟨6, 0, 7, 0⟩] ∧
    rangesOf 4 c!"<?php function f(int &$b) {}" =
      [some ⟨6, 0, 28, 0⟩, some ⟨16, 0, 28, 0⟩, some ⟨21, 0, 24, 0⟩, some ⟨17, 0, 20, 0⟩, some ⟨26, 0, 28, 0⟩] ∧
    rangesOf 3 c!"<?php f('ééé');" =
      [some ⟨6, 0, 14, 0⟩, some ⟨6, 0, 14, 0⟩, some ⟨8, 0, 16, 0⟩, some ⟨6, 0, 7, 0⟩] := by decide +kernel

end PhpLs.Parser
