import Verif.NodeGood
import Verif.Props.ScannerInv

/-!
# Doc comments: reading them always ends and never fails (C22)
-/

namespace PhpLs.DocBlock

open PhpLs PhpLs.Parser

/-! ## The loops only move forward -/

theorem advance_chars (s : DSt) : (advance s).2.chars = s.chars.tail := by
  obtain ⟨c, l, cs⟩ := s
  cases cs with
  | nil => rfl
  | cons a r => unfold advance; dsimp only; split <;> rfl

theorem advance_fst (s : DSt) : (advance s).1 = s.chars.head? := by
  obtain ⟨c, l, cs⟩ := s
  cases cs with
  | nil => rfl
  | cons a r => unfold advance; dsimp only; split <;> rfl

theorem skipBlanksOn_chars (U : Unicode) : ∀ (l : Text) (s : DSt), s.chars = l →
    (skipBlanksOn U l s).chars = l.dropWhile U.isSpace
  | [], s, h => h
  | c :: r, s, h => by
    unfold skipBlanksOn
    rw [List.dropWhile_cons]
    split
    · exact skipBlanksOn_chars U r _ (by rw [advance_chars, h]; rfl)
    · exact h

theorem skipBlanks_chars (U : Unicode) (s : DSt) : (skipBlanks U s).chars = s.chars.dropWhile U.isSpace :=
  skipBlanksOn_chars U _ s rfl

/-- Characters of a name. -/
def identChar (U : Unicode) (allowThis : Bool) (c : Char) : Bool := U.isAlnum c || c = '_' || (c = '$' && allowThis)

theorem collectIdentOn_spec (U : Unicode) (a : Bool) : ∀ (l : Text) (s : DSt), s.chars = l →
    (collectIdentOn U a l s).1 = l.takeWhile (identChar U a) ∧
    (collectIdentOn U a l s).2.chars = l.dropWhile (identChar U a)
  | [], s, h => ⟨rfl, h⟩
  | c :: r, s, h => by
    unfold collectIdentOn
    rw [List.dropWhile_cons, List.takeWhile_cons]
    unfold identChar
    split
    · have := collectIdentOn_spec U a r (advance s).2 (by rw [advance_chars, h]; rfl)
      dsimp only
      exact ⟨by rw [this.1]; rfl, this.2⟩
    · exact ⟨rfl, h⟩

theorem collectIdent_fst (U : Unicode) (a : Bool) (s : DSt) :
    (collectIdent U a s).1 = s.chars.takeWhile (identChar U a) := (collectIdentOn_spec U a _ s rfl).1
theorem collectIdent_chars (U : Unicode) (a : Bool) (s : DSt) :
    (collectIdent U a s).2.chars = s.chars.dropWhile (identChar U a) := (collectIdentOn_spec U a _ s rfl).2

theorem dropWhile_length_le (p : Char → Bool) (l : Text) : (l.dropWhile p).length ≤ l.length :=
  (List.dropWhile_sublist p).length_le

theorem collectIdent_length (U : Unicode) (a : Bool) (s : DSt) :
    (collectIdent U a s).2.chars.length ≤ s.chars.length := by
  rw [collectIdent_chars]; exact dropWhile_length_le _ _

theorem skipBlanks_length (U : Unicode) (s : DSt) : (skipBlanks U s).chars.length ≤ s.chars.length := by
  rw [skipBlanks_chars]; exact dropWhile_length_le _ _

theorem collectDescrOn_spec : ∀ (l : Text) (s : DSt), s.chars = l →
    (collectDescrOn l s).1 = l.takeWhile (· ≠ '\n') ∧ (collectDescrOn l s).2.chars = (l.dropWhile (· ≠ '\n')).tail
  | [], s, h => ⟨rfl, h⟩
  | c :: r, s, h => by
    unfold collectDescrOn
    rw [List.dropWhile_cons, List.takeWhile_cons]
    by_cases hc : c = '\n'
    · simp [hc, advance_chars, h]
    · have := collectDescrOn_spec r (advance s).2 (by rw [advance_chars, h]; rfl)
      simp only [hc, if_false, ne_eq, not_false_eq_true, decide_true, if_true]
      exact ⟨by rw [this.1], by rw [this.2]⟩

theorem collectDescr_length (s : DSt) : (collectDescr s).2.chars.length ≤ s.chars.length := by
  unfold collectDescr
  rw [(collectDescrOn_spec _ s rfl).2]
  have := dropWhile_length_le (· ≠ '\n') s.chars
  simp only [List.length_tail]
  omega

theorem peek_some_length {s : DSt} {c : Char} (h : peek s = some c) : s.chars ≠ [] := by
  intro h0; simp [peek, h0] at h

/-- The tokens of doc comments are printable. -/
def DocTok (k : Token) : Prop := k.end ≠ none

theorem end_ne_none_of_display {k : Token} {me : Text} (h : k.display = some me) (hne : me ≠ []) : k.end ≠ none := by
  unfold Token.end
  rw [h]
  cases hl : k.label with
  | none => simp
  | some l =>
    simp only [Option.isSome_some, if_true, Option.bind_eq_bind, Option.bind_some]
    split
    · simp
    · cases hlast : (rustLines me).getLast? with
      | some x => simp
      | none => exact absurd (List.getLast?_eq_none_iff.mp hlast) (Scanner.rustLines_ne_nil me hne)

theorem tokenType_mem (U : Unicode) (name : Text) : tokenType U name ∈
    [TT.kwNull, .mixed, .typeBool, .typeInt, .typeString, .kwStatic, .typeSelf, .typeArray, .typeObject, .typeFloat,
      .kwVoid, .kwCallable, .generator, .resource, .identifier] := by
  unfold tokenType
  split
  · rename_i t h
    have := Scanner.lookup_mem h
    generalize U.lower name = x at this
    simp only [List.mem_cons, Prod.mk.injEq, List.not_mem_nil, or_false] at this
    rcases this with h | h | h | h | h | h | h | h | h | h | h | h | h | h | h | h | h | h <;>
      · rw [h.2]; decide
  · decide

theorem docTok_ident (U : Unicode) (l c : Nat) {ident : Text} (h : ident ≠ []) :
    DocTok (Token.named (tokenType U ident) l c 0 ident) := by
  have hm := tokenType_mem U ident
  generalize tokenType U ident = t at hm
  simp only [List.mem_cons, List.not_mem_nil, or_false] at hm
  rcases hm with h | h | h | h | h | h | h | h | h | h | h | h | h | h | rfl
  case inr.inr.inr.inr.inr.inr.inr.inr.inr.inr.inr.inr.inr.inr =>
    exact end_ne_none_of_display (me := ident) rfl h
  all_goals
    subst h
    exact end_ne_none_of_display (me := c!"Should have never been called with") rfl (by decide)

theorem docTok_sep (l c : Nat) : DocTok (Token.new .namespaceSeparator l c 0) :=
  end_ne_none_of_display (me := c!"\\") rfl (by decide)

theorem docTok_variable (l c : Nat) (n : Text) : DocTok (Token.named .variable l c 0 n) :=
  end_ne_none_of_display (me := c!"$" ++ n) rfl (by simp)

theorem good_parts {m : Bool} {ps : List Token} (h : ∀ k ∈ ps, DocTok k) : ∀ t, parts m ps = some t → ∀ k ∈ t.kind, DocTok k := by
  intro t ht
  unfold parts at ht
  split at ht
  · cases ht
  · cases ht; exact h

/-- `collect_type_ref` ends. -/
theorem collectTypeRef_some (U : Unicode) (al : Bool) : ∀ (n : Nat) (ps : List Token) (s : DSt), s.chars.length < n →
    (∀ k ∈ ps, DocTok k) →
    ∃ t s', collectTypeRef U al n ps s = some (t, s') ∧ s'.chars.length ≤ s.chars.length ∧
      ∀ x, t = some x → ∀ k ∈ x.kind, DocTok k
  | 0, _, _, h, _ => by omega
  | n + 1, ps, s, h, hps => by
    unfold collectTypeRef
    have h1 := collectIdent_length U al s
    generalize hi : collectIdent U al s = r at h1
    obtain ⟨ident, s1⟩ := r
    dsimp only
    have hps1 : ∀ k ∈ (if ident.isEmpty = true then ps else
        ps ++ [Token.named (tokenType U ident) s.line s.col 0 ident]), DocTok k := by
      split
      · exact hps
      · rename_i hne
        intro k hk
        rcases List.mem_append.1 hk with hk | hk
        · exact hps k hk
        · rw [List.mem_singleton.1 hk]
          exact docTok_ident U _ _ (by simpa using hne)
    split
    · rename_i hp
      have hne := peek_some_length hp
      have hlen : (advance s1).2.chars.length < s1.chars.length := by
        rw [advance_chars, List.length_tail]
        have := List.length_pos_iff.2 hne
        omega
      dsimp only at h1
      obtain ⟨t, s', e, hl, ht⟩ := collectTypeRef_some U al n
        ((if ident.isEmpty = true then ps else ps ++ [Token.named (tokenType U ident) s.line s.col 0 ident]) ++
          [Token.new .namespaceSeparator s.line s.col 0]) (advance s1).2 (by omega) (by
            intro k hk
            rcases List.mem_append.1 hk with hk | hk
            · exact hps1 k hk
            · rw [List.mem_singleton.1 hk]; exact docTok_sep _ _)
      exact ⟨t, s', e, by omega, ht⟩
    · split
      · rename_i hp
        have hne := peek_some_length hp
        have hpos := List.length_pos_iff.2 hne
        have hlen : (advance s1).2.chars.length < s1.chars.length := by
          rw [advance_chars, List.length_tail]; omega
        have hlen2 : (advance (advance s1).2).2.chars.length ≤ (advance s1).2.chars.length := by
          rw [advance_chars (advance s1).2, List.length_tail]; omega
        have hlen3 : (advance (advance (advance s1).2).2).2.chars.length ≤ (advance (advance s1).2).2.chars.length := by
          rw [advance_chars (advance (advance s1).2).2, List.length_tail]; omega
        dsimp only at h1
        split
        · exact ⟨_, _, rfl, by omega, good_parts hps1⟩
        · obtain ⟨t, s', e, hl, ht⟩ := collectTypeRef_some U al n
            (if ident.isEmpty = true then ps else ps ++ [Token.named (tokenType U ident) s.line s.col 0 ident])
            (advance (advance (advance s1).2).2).2 (by omega) hps1
          exact ⟨t, s', e, by omega, ht⟩
      · exact ⟨_, _, rfl, h1, good_parts hps1⟩

/-- The loop over the alternatives of a type ends. -/
theorem collectTypes_some (U : Unicode) (al : Bool) : ∀ (n : Nat) (acc : List TypeRef) (s : DSt), s.chars.length < n →
    (∀ t ∈ acc, ∀ k ∈ t.kind, DocTok k) →
    ∃ ts s', collectTypes U al n acc s = some (ts, s') ∧ s'.chars.length ≤ s.chars.length ∧
      ∀ t ∈ ts, ∀ k ∈ t.kind, DocTok k
  | 0, _, _, h, _ => by omega
  | n + 1, acc, s, h, ha => by
    unfold collectTypes
    obtain ⟨t, s1, e, hl, ht⟩ := collectTypeRef_some U al (s.chars.length + 1) [] s (by omega) (by simp)
    rw [e]
    simp only [Option.bind_eq_bind, Option.bind_some]
    cases t with
    | none => exact ⟨acc, s1, rfl, hl, ha⟩
    | some t =>
      dsimp only
      have ha' : ∀ x ∈ acc ++ [t], ∀ k ∈ x.kind, DocTok k := by
        intro x hx
        rcases List.mem_append.1 hx with hx | hx
        · exact ha x hx
        · rw [List.mem_singleton.1 hx]; exact ht t rfl
      split
      · rename_i hp
        have hne := peek_some_length hp
        have hpos := List.length_pos_iff.2 hne
        have hlen : (advance s1).2.chars.length < s1.chars.length := by
          rw [advance_chars, List.length_tail]; omega
        obtain ⟨ts, s', e', hl', ht'⟩ := collectTypes_some U al n (acc ++ [t]) (advance s1).2 (by omega) ha'
        exact ⟨ts, s', e', by omega, ht'⟩
      · exact ⟨_, _, rfl, hl, ha'⟩

theorem collectName_length (U : Unicode) (s : DSt) : (collectName U s).2.chars.length ≤ s.chars.length := by
  unfold collectName
  split
  · refine Nat.le_trans (collectIdent_length U false _) ?_
    rw [advance_chars, List.length_tail]; omega
  · exact Nat.le_refl _

theorem directive_some (U : Unicode) (al nm : Bool) (s : DSt) : ∃ ts k d s',
    directive U al nm s = some (ts, k, d, s') ∧ s'.chars.length ≤ s.chars.length ∧ DocTok k ∧
      ∀ t ∈ ts, ∀ k ∈ t.kind, DocTok k := by
  unfold directive
  have h0 := skipBlanks_length U s
  generalize skipBlanks U s = s0 at h0 ⊢
  obtain ⟨ts, s1, e, hl, ht⟩ := collectTypes_some U al (s0.chars.length + 1) [] s0 (by omega) (by simp)
  have h2 := skipBlanks_length U s1
  dsimp only
  rw [e]
  simp only [Option.bind_eq_bind, Option.bind_some]
  generalize skipBlanks U s1 = s2 at h2 ⊢
  have h3 : (if nm = true then collectName U s2 else ([], s2)).2.chars.length ≤ s2.chars.length := by
    split
    · exact collectName_length U s2
    · exact Nat.le_refl _
  generalize (if nm = true then collectName U s2 else ([], s2)) = r at h3 ⊢
  obtain ⟨name, s3⟩ := r
  have h4 := collectDescr_length s3
  generalize collectDescr s3 = r2 at h4 ⊢
  obtain ⟨d, s4⟩ := r2
  dsimp only at h3 h4 ⊢
  exact ⟨_, _, _, _, rfl, by omega, docTok_variable _ _ _, ht⟩

/-- All tokens collected so far are printable. -/
structure AccOk (a : Acc) : Prop where
  properties : Good DocTok a.properties
  params : Good DocTok a.params
  returnType : Good DocTok a.returnType
  varDocs : Good DocTok a.varDocs

theorem good_types {ts : List TypeRef} (h : ∀ t ∈ ts, ∀ k ∈ t.kind, DocTok k) : Good DocTok ts := by
  rw [good_list]; exact fun t ht k hk => h t ht k hk

theorem good_someTypes {ts : List TypeRef} (h : ∀ t ∈ ts, ∀ k ∈ t.kind, DocTok k) : Good DocTok (someTypes ts) := by
  unfold someTypes
  split
  · good_simp
  · good_simp; exact good_types h

theorem atSign_some (U : Unicode) (a : Acc) (s : DSt) (ha : AccOk a) : ∃ a' s', atSign U a s = some (a', s') ∧
    s'.chars.length ≤ s.chars.length ∧ AccOk a' := by
  unfold atSign
  have h1 := collectIdent_length U false s
  generalize collectIdent U false s = r at h1 ⊢
  obtain ⟨d, s1⟩ := r
  have h2 := skipBlanks_length U s1
  dsimp only at h1 ⊢
  generalize skipBlanks U s1 = s2 at h2 ⊢
  split
  · obtain ⟨ts, k, d, s3, e, hl, hk, ht⟩ := directive_some U false true s2
    rw [e]
    refine ⟨_, s3, rfl, by omega, ?_⟩
    refine ⟨ha.properties, ?_, ha.returnType, ha.varDocs⟩
    good_simp
    exact ⟨ha.params, hk, good_types ht⟩
  · split
    · obtain ⟨ts, k, d, s3, e, hl, hk, ht⟩ := directive_some U true false s2
      rw [e]
      refine ⟨_, s3, rfl, by omega, ?_⟩
      refine ⟨ha.properties, ha.params, ?_, ha.varDocs⟩
      good_simp
      exact ⟨ha.returnType, good_someTypes ht⟩
    · split
      · obtain ⟨ts, k, d, s3, e, hl, hk, ht⟩ := directive_some U false true s2
        rw [e]
        refine ⟨_, s3, rfl, by omega, ?_⟩
        refine ⟨ha.properties, ha.params, ha.returnType, ?_⟩
        good_simp
        exact ⟨ha.varDocs, hk, good_types ht⟩
      · split
        · exact ⟨_, _, rfl, by omega, ⟨ha.properties, ha.params, ha.returnType, ha.varDocs⟩⟩
        · split
          · obtain ⟨ts, k, d, s3, e, hl, hk, ht⟩ := directive_some U false true s2
            rw [e]
            refine ⟨_, s3, rfl, by omega, ?_⟩
            refine ⟨?_, ha.params, ha.returnType, ha.varDocs⟩
            good_simp
            exact ⟨ha.properties, hk, good_someTypes ht⟩
          · exact ⟨_, _, rfl, by omega, ha⟩

theorem scanLoop_some (U : Unicode) : ∀ (n : Nat) (a : Acc) (s : DSt), s.chars.length < n → AccOk a →
    ∃ a', scanLoop U n a s = some a' ∧ AccOk a'
  | 0, _, _, h, _ => by omega
  | n + 1, a, s, h, ha => by
    unfold scanLoop
    have hf := advance_fst s
    have hs := advance_chars s
    generalize advance s = r at hf hs ⊢
    obtain ⟨c, s1⟩ := r
    cases c with
    | none => exact ⟨a, rfl, ha⟩
    | some c =>
      dsimp only at hf hs ⊢
      have hne : s.chars ≠ [] := by intro h0; rw [h0] at hf; cases hf
      have hpos := List.length_pos_iff.2 hne
      have hlen : s1.chars.length < s.chars.length := by rw [hs, List.length_tail]; omega
      split
      · obtain ⟨a', s2, e, hl, ha'⟩ := atSign_some U a s1 ha
        rw [e]
        exact scanLoop_some U n a' s2 (by omega) ha'
      · split
        · exact scanLoop_some U n a s1 (by omega) ha
        · exact scanLoop_some U n _ s1 (by omega) ⟨ha.properties, ha.params, ha.returnType, ha.varDocs⟩

/-- **C22 (second half).** Reading a doc comment always ends, and fails only if the comment token has no text. -/
theorem C22_ends (U : Unicode) (comment : Token) : docNode U comment = none ↔ comment.label = none := by
  unfold docNode
  cases hl : comment.label with
  | none => simp
  | some l =>
    obtain ⟨a, e, -⟩ := scanLoop_some U (l.length + 1) {} ⟨comment.col + 2, comment.line, l⟩ (Nat.lt_succ_self _)
      ⟨by good_simp, by good_simp, by good_simp, by good_simp⟩
    simp [e]

/-- The end of every token in the tree of a doc comment can be computed. -/
theorem docNode_toks_end (U : Unicode) (comment : Token) (n : Node) (h : docNode U comment = some n) :
    ∀ k ∈ n.toks, k = comment ∨ k.end ≠ none := by
  unfold docNode at h
  cases hl : comment.label with
  | none => rw [hl] at h; cases h
  | some l =>
    obtain ⟨a, e, ha⟩ := scanLoop_some U (l.length + 1) {} ⟨comment.col + 2, comment.line, l⟩ (Nat.lt_succ_self _)
      ⟨by good_simp, by good_simp, by good_simp, by good_simp⟩
    rw [hl] at h
    simp only [Option.bind_eq_bind, Option.bind_some, e] at h
    cases h
    have : Good (fun k => k = comment ∨ DocTok k)
        (Node.docComment comment a.returnType a.description a.isDeprecated a.params a.varDocs a.properties) := by
      good_simp
      exact ⟨.inl trivial, fun k hk => .inr (ha.returnType k hk), fun k hk => .inr (ha.params k hk),
        fun k hk => .inr (ha.varDocs k hk), fun k hk => .inr (ha.properties k hk)⟩
    exact this

end PhpLs.DocBlock
