import Verif.ExprLemmas
import Verif.Import
import Verif.Props.ParserHang
import Verif.Props.ParserExpr

/-!
# Imports are expanded correctly (C53)

Independent description of `use` statements: names, aliases, groups.  A statement stands for a list of pairs: the full name
and the name it gets in the file.  The parser (`useCase`, the `use` case of `statement`) followed by `collect_uses` gives
exactly these pairs.
-/

namespace PhpLs.Parser

open PhpLs

/-! ## Specification -/

/-- A name: an optional leading separator, a first word and further words behind separators. -/
structure QName where
  ns : Option Token
  id : Token
  path : List (Token × Token)

/-- The tokens of a name, in order. -/
def QName.toks (q : QName) : List Token := q.ns.toList ++ q.id :: q.path.flatMap fun p => [p.1, p.2]

/-- The words of a name. -/
def QName.idents (q : QName) : List Token := q.id :: q.path.map (·.2)

/-- A separator. -/
def IsSep (k : Token) : Prop := Plain k ∧ k.t = .namespaceSeparator

/-- A name the scanner can deliver. -/
structure QName.Ok (q : QName) : Prop where
  ns : ∀ k ∈ q.ns, IsSep k
  seps : ∀ p ∈ q.path, IsSep p.1
  words : ∀ k ∈ q.idents, Plain k ∧ k.isIdentifier = true

/-- All words carry their text, so no word is a reserved word; the separators carry none. -/
structure QName.Labelled (q : QName) : Prop where
  words : ∀ k ∈ q.idents, k.t = .identifier ∧ k.label.isSome = true
  ns : ∀ k ∈ q.ns, k.label = none
  seps : ∀ p ∈ q.path, p.1.label = none

/-- Words with a separator in between. -/
def joinWords : List Text → Text
  | [] => []
  | [w] => w
  | w :: r => w ++ '\\' :: joinWords r

/-- The text of a word. -/
def wordText (k : Token) : Text := k.label.getD []

/-- The text of a name. -/
def QName.text (q : QName) : Text := (if q.ns.isSome then ['\\'] else []) ++ joinWords (q.idents.map wordText)

/-- The last word of a name. -/
def QName.lastWord (q : QName) : Text := wordText (q.idents.getLast (by simp [QName.idents]))

/-- `as name`. -/
abbrev AliasC := Option (Token × Token)

def AliasC.toks : AliasC → List Token
  | none => []
  | some (a, b) => [a, b]

def AliasC.Ok (a : AliasC) : Prop :=
  ∀ p ∈ a, (Plain p.1 ∧ p.1.t = .kwAs) ∧ Plain p.2 ∧ p.2.t = .identifier

def AliasC.Labelled (a : AliasC) : Prop := ∀ p ∈ a, p.2.label.isSome = true

/-- The name a thing gets: its alias or else its last word. -/
def localName (q : QName) (a : AliasC) : Text :=
  match a with
  | none => q.lastWord
  | some p => wordText p.2

/-- A member of a group: `function`, `const` or nothing, a name, an alias. -/
structure Item where
  kw : Option Token
  name : QName
  as : AliasC

def Item.toks (i : Item) : List Token := i.kw.toList ++ i.name.toks ++ AliasC.toks i.as

/-- A member of a group; its first token is no reserved word other than `function` and `const`. -/
structure Item.Ok (i : Item) : Prop where
  kw : ∀ k ∈ i.kw, Plain k ∧ (k.t = .kwFunction ∨ k.t = .kwConst)
  name : i.name.Ok
  start : i.kw = none → i.name.ns = none ∧ i.name.id.t = .identifier
  as : AliasC.Ok i.as

/-- One of the things a `use` statement lists. -/
inductive Clause where
  | one (name : QName) (as : AliasC)
  | group (pre : QName) (sep oc : Token) (first : Item) (more : List (Token × Item)) (trail : Option Token) (cc : Token)

def Clause.toks : Clause → List Token
  | .one q a => q.toks ++ AliasC.toks a
  | .group q sep oc i is t cc =>
    q.toks ++ (sep :: oc :: (i.toks ++ (is.flatMap (fun p => p.1 :: p.2.toks) ++ (t.toList ++ [cc]))))

def IsComma (k : Token) : Prop := Plain k ∧ k.t = .comma

inductive Clause.Ok : Clause → Prop where
  | one {q : QName} {a : AliasC} (h1 : q.Ok) (h2 : AliasC.Ok a) : Clause.Ok (.one q a)
  | group {q : QName} {sep oc : Token} {i : Item} {is : List (Token × Item)} {t : Option Token} {cc : Token}
      (h1 : q.Ok) (h2 : IsSep sep) (h3 : Plain oc ∧ oc.t = .openCurly) (h4 : i.Ok)
      (h5 : ∀ p ∈ is, IsComma p.1 ∧ p.2.Ok) (h6 : ∀ k ∈ t, IsComma k) (h7 : Plain cc ∧ cc.t = .closeCurly) :
      Clause.Ok (.group q sep oc i is t cc)

def Clause.Labelled : Clause → Prop
  | .one q a => q.Labelled ∧ AliasC.Labelled a
  | .group q sep _ i is _ _ => q.Labelled ∧ sep.label = none ∧ ∀ j ∈ i :: is.map (·.2), j.name.Labelled ∧ AliasC.Labelled j.as

/-- What a clause imports: full names and local names. -/
def Clause.imports : Clause → List (Text × Text)
  | .one q a => [(q.text, localName q a)]
  | .group q _ _ i is _ _ => (i :: is.map (·.2)).map fun j => (q.text ++ '\\' :: j.name.text, localName j.name j.as)

/-- The three kinds of `use` statements. -/
inductive UseKind where
  | plain
  | function
  | const
deriving DecidableEq

/-- A `use` statement: the word `use`, a word for the kind, clauses with commas in between, a semicolon. -/
structure UseStmt where
  use : Token
  kw : Option Token
  first : Clause
  more : List (Token × Clause)
  semi : Token

def UseStmt.toks (u : UseStmt) : List Token :=
  u.use :: (u.kw.toList ++ (u.first.toks ++ (u.more.flatMap (fun p => p.1 :: p.2.toks) ++ [u.semi])))

def UseStmt.clauses (u : UseStmt) : List Clause := u.first :: u.more.map (·.2)

/-- What a statement imports. -/
def UseStmt.imports (u : UseStmt) : List (Text × Text) := u.clauses.flatMap Clause.imports

def Clause.isOne : Clause → Prop
  | .one _ _ => True
  | _ => False

/-- A statement of a given kind.  Groups of functions and of constants are not covered: the parser does not read them. -/
structure UseStmt.Ok (u : UseStmt) (kind : UseKind) : Prop where
  use : Plain u.use ∧ u.use.t = .kwUse
  kw : match kind with
    | .plain => u.kw = none
    | .function => ∃ k, u.kw = some k ∧ Plain k ∧ k.t = .kwFunction
    | .const => ∃ k, u.kw = some k ∧ Plain k ∧ k.t = .kwConst
  start : kind = .plain → ∀ q a, u.first = .one q a → q.ns = none → q.id.t ≠ .kwFunction ∧ q.id.t ≠ .kwConst
  startGroup : kind = .plain → ∀ q sep oc i is t cc, u.first = .group q sep oc i is t cc → q.ns = none →
    q.id.t ≠ .kwFunction ∧ q.id.t ≠ .kwConst
  clauses : ∀ c ∈ u.clauses, c.Ok ∧ (kind ≠ .plain → c.isOne)
  commas : ∀ p ∈ u.more, IsComma p.1
  semi : Plain u.semi ∧ u.semi.t = .semicolon

/-- All words of the statement carry their text. -/
def UseStmt.Labelled (u : UseStmt) : Prop := ∀ c ∈ u.clauses, c.Labelled

/-! ## The parser reads such statements -/

variable {doc : Token → Option Node} {rest : List Token} {k : Token}

/-- The node of a name. -/
def QName.node (q : QName) : Node := .typeRef ⟨q.toks, false⟩

/-- A token that follows a name with its alias. -/
structure Stop (k : Token) : Prop where
  plain : Plain k
  noSep : k.t ≠ .namespaceSeparator
  noAs : k.t ≠ .kwAs

theorem name_reads {q : QName} (hq : q.Ok) (hk : Plain k) (hk' : k.t ≠ .namespaceSeparator) :
    Reads doc nonEmptyTypeRef q.toks (k :: rest) q.node :=
  nonEmptyTypeRef_reads hq.ns (hq.words q.id (List.mem_cons_self ..))
    (fun p hp => ⟨hq.seps p hp, hq.words p.2 (List.mem_cons_of_mem _ (List.mem_map_of_mem hp))⟩) hk hk'

theorem ident_no_sep {k : Token} (h : k.isIdentifier = true) : k.t ≠ .namespaceSeparator := fun e => by
  have : k.t.isIdentifier = true := h
  rw [e] at this
  cases this

/-- The loop of `types::non_empty_namespace_ref` in front of a token that is no separator: the path is split at its last
word. -/
theorem nsRef_loop_one {path : List (Token × Token)}
    (hp : ∀ p ∈ path, IsSep p.1 ∧ Plain p.2 ∧ p.2.isIdentifier = true) (hk : Plain k) (hk' : k.t ≠ .namespaceSeparator)
    (init : List Token) (last : Token) :
    ∃ init' last', LoopReads doc .other (fun _ (path : List Token × Token) => do
      match ← consumeOrIgnore .namespaceSeparator with
      | some ns => do
        match ← takeIf Token.isIdentifier with
        | some i => pure (.inl (path.1 ++ [path.2, ns], i))
        | none => pure (.inr (path.1 ++ [path.2], ns))
      | none => pure (.inr path)) (init, last) (Ex.pathToks path) (k :: rest) (init', last') ∧
      init' ++ [last'] = init ++ last :: Ex.pathToks path ∧ (last' = last ∨ last'.isIdentifier = true) := by
  induction path generalizing init last with
  | nil =>
    refine ⟨init, last, LoopReads.stop ?_, by simp [Ex.pathToks], .inl rfl⟩
    exact Reads.bind_last (Reads.ignore_no hk hk') Reads.pure
  | cons p path ih =>
    obtain ⟨⟨h1, h2⟩, h3, h4⟩ := hp p (List.mem_cons_self ..)
    obtain ⟨i', l', h5, h6, h7⟩ := ih (fun q hq => hp q (List.mem_cons_of_mem _ hq)) (init ++ [last, p.1]) p.2
    have e : Ex.pathToks (p :: path) = [p.1, p.2] ++ Ex.pathToks path := rfl
    rw [e]
    refine ⟨i', l', LoopReads.step (b' := (init ++ [last, p.1], p.2)) ?_ h5, by rw [h6]; simp, ?_⟩
    · refine Reads.bind1 (Reads.ignore_yes h1 h2) ?_
      exact Reads.bind1 (ts := []) (Reads.takeIf_yes h3 h4) Reads.pure
    · rcases h7 with h7 | h7
      · exact .inr (by rw [h7]; exact h4)
      · exact .inr h7

/-- The same in front of a separator and a token that is no word. -/
theorem nsRef_loop_group {path : List (Token × Token)} {sep : Token}
    (hp : ∀ p ∈ path, IsSep p.1 ∧ Plain p.2 ∧ p.2.isIdentifier = true) (hs : IsSep sep) (hk : Plain k)
    (hk' : k.isIdentifier = false) (init : List Token) (last : Token) :
    LoopReads doc .other (fun _ (path : List Token × Token) => do
      match ← consumeOrIgnore .namespaceSeparator with
      | some ns => do
        match ← takeIf Token.isIdentifier with
        | some i => pure (.inl (path.1 ++ [path.2, ns], i))
        | none => pure (.inr (path.1 ++ [path.2], ns))
      | none => pure (.inr path)) (init, last) (Ex.pathToks path ++ [sep]) (k :: rest)
      (init ++ last :: Ex.pathToks path, sep) := by
  induction path generalizing init last with
  | nil =>
    refine LoopReads.stop ?_
    refine Reads.bind1 (ts := []) (Reads.ignore_yes hs.1 hs.2) ?_
    exact Reads.bind_last (Reads.takeIf_no hk hk') Reads.pure
  | cons p path ih =>
    obtain ⟨⟨h1, h2⟩, h3, h4⟩ := hp p (List.mem_cons_self ..)
    have h5 := ih (fun q hq => hp q (List.mem_cons_of_mem _ hq)) (init ++ [last, p.1]) p.2
    have e : Ex.pathToks (p :: path) ++ [sep] = [p.1, p.2] ++ (Ex.pathToks path ++ [sep]) := rfl
    rw [e]
    refine LoopReads.step (b' := (init ++ [last, p.1], p.2)) ?_ ?_
    · refine Reads.bind1 (Reads.ignore_yes h1 h2) ?_
      exact Reads.bind1 (ts := []) (Reads.takeIf_yes h3 h4) Reads.pure
    · have e2 : init ++ last :: Ex.pathToks (p :: path) = (init ++ [last, p.1]) ++ p.2 :: Ex.pathToks path := by
        simp [Ex.pathToks]
      rw [e2]
      exact h5

theorem nsRef_reads_one {q : QName} (hq : q.Ok) (hk : Plain k) (hk' : k.t ≠ .namespaceSeparator) :
    ∃ init last, Reads doc nonEmptyNamespaceRef q.toks (k :: rest) (init, last) ∧ init ++ [last] = q.toks ∧
      last.t ≠ .namespaceSeparator := by
  obtain ⟨hid, hidt⟩ := hq.words q.id (List.mem_cons_self ..)
  obtain ⟨i', l', h1, h2, h3⟩ := nsRef_loop_one (doc := doc) (rest := rest) (k := k) (path := q.path)
    (fun p hp => ⟨hq.seps p hp, hq.words p.2 (List.mem_cons_of_mem _ (List.mem_map_of_mem hp))⟩) hk hk' q.ns.toList q.id
  refine ⟨i', l', ?_, h2, ?_⟩
  · unfold nonEmptyNamespaceRef
    refine Reads.bind (a := q.ns) (ts := q.ns.toList) ?_ (Reads.bind1 (Reads.consumeIdentifier hid hidt) (Reads.loop h1))
    have := hq.ns
    revert this
    cases q.ns with
    | none => exact fun _ => Reads.ignore_no hid (ident_no_sep hidt)
    | some n => exact fun h => Reads.ignore_yes (h n rfl).1 (h n rfl).2
  · rcases h3 with rfl | h3
    · exact ident_no_sep hidt
    · exact ident_no_sep h3

theorem nsRef_reads_group {q : QName} {sep : Token} (hq : q.Ok) (hs : IsSep sep) (hk : Plain k)
    (hk' : k.isIdentifier = false) :
    Reads doc nonEmptyNamespaceRef (q.toks ++ [sep]) (k :: rest) (q.toks, sep) := by
  obtain ⟨hid, hidt⟩ := hq.words q.id (List.mem_cons_self ..)
  have h1 := nsRef_loop_group (doc := doc) (rest := rest) (k := k) (path := q.path)
    (fun p hp => ⟨hq.seps p hp, hq.words p.2 (List.mem_cons_of_mem _ (List.mem_map_of_mem hp))⟩) hs hk hk' q.ns.toList q.id
  have e : q.toks ++ [sep] = q.ns.toList ++ (q.id :: (Ex.pathToks q.path ++ [sep])) := by
    simp [QName.toks, Ex.pathToks]
  rw [e]
  unfold nonEmptyNamespaceRef
  refine Reads.bind (a := q.ns) (ts := q.ns.toList) ?_ (Reads.bind1 (Reads.consumeIdentifier hid hidt) (Reads.loop h1))
  have := hq.ns
  revert this
  cases q.ns with
  | none => exact fun _ => Reads.ignore_no hid (ident_no_sep hidt)
  | some n => exact fun h => Reads.ignore_yes (h n rfl).1 (h n rfl).2

theorem alias_reads {a : AliasC} (ha : AliasC.Ok a) (hk : Stop k) :
    Reads doc (fun _ => importAlias) (AliasC.toks a) (k :: rest) (a.map (·.1), a.map (·.2)) := by
  unfold importAlias
  cases a with
  | none => exact Reads.bind_last (Reads.ignore_no hk.plain hk.noAs) Reads.pure
  | some p =>
    obtain ⟨⟨h1, h2⟩, h3, h4⟩ := ha p rfl
    refine Reads.bind1 (ts := [p.2]) (Reads.ignore_yes h1 h2) ?_
    exact Reads.bind1 (ts := []) (Reads.consume h3 h4) Reads.pure

/-- The first token of a clause, behind an optional alias: `as` or the stop. -/
theorem alias_head {a : AliasC} (ha : AliasC.Ok a) (hk : Stop k) :
    ∃ k' r', AliasC.toks a ++ k :: rest = k' :: r' ∧ Plain k' ∧ k'.t ≠ .namespaceSeparator := by
  cases a with
  | none => exact ⟨k, rest, rfl, hk.plain, hk.noSep⟩
  | some p =>
    obtain ⟨⟨h1, h2⟩, -⟩ := ha p rfl
    exact ⟨p.1, _, rfl, h1, by rw [h2]; decide⟩

/-- The node of a member of a group. -/
def Item.node (i : Item) : Node :=
  match i.kw with
  | none => .useDeclaration none i.name.node (i.as.map (·.1)) (i.as.map (·.2))
  | some k =>
    if k.t = .kwFunction then .useFunction none i.name.node (i.as.map (·.1)) (i.as.map (·.2))
    else .useConst none i.name.node (i.as.map (·.1)) (i.as.map (·.2))

theorem item_reads {i : Item} (hi : i.Ok) (hk : Stop k) :
    Reads doc symbolImport i.toks (k :: rest) i.node := by
  obtain ⟨k', r', e, hk1, hk2⟩ := alias_head (rest := rest) hi.as hk
  have hn : Reads doc nonEmptyTypeRef i.name.toks (AliasC.toks i.as ++ k :: rest) i.name.node := by
    rw [e]; exact name_reads hi.name hk1 hk2
  have ha := alias_reads (doc := doc) (rest := rest) hi.as hk
  unfold symbolImport Item.node Item.toks
  have h1 := hi.kw
  have h2 := hi.start
  generalize i.kw = kw at h1 h2 ⊢
  cases kw with
  | none =>
    obtain ⟨h3, h4⟩ := h2 rfl
    obtain ⟨hid, -⟩ := hi.name.words i.name.id (List.mem_cons_self ..)
    have e2 : i.name.toks = i.name.id :: Ex.pathToks i.name.path := by simp [QName.toks, h3, Ex.pathToks]
    have start : ∀ t, t ≠ .identifier → Reads doc (fun _ => consumeOrIgnore t) []
        (i.name.toks ++ AliasC.toks i.as ++ k :: rest) none := by
      intro t ht
      rw [e2]
      exact Reads.ignore_no hid (by rw [h4]; exact fun h => ht h.symm)
    refine Reads.bind0 (start _ (by decide)) (Reads.bind0 (start _ (by decide)) ?_)
    exact Reads.bind hn (Reads.bind_last ha Reads.pure)
  | some kw =>
    obtain ⟨h3, h4⟩ := h1 kw rfl
    by_cases h5 : kw.t = .kwFunction
    · simp only [h5, if_true]
      refine Reads.bind1 (Reads.ignore_yes h3 h5) ?_
      exact Reads.bind hn (Reads.bind_last ha Reads.pure)
    · have h6 : kw.t = .kwConst := h4.resolve_left h5
      simp only [h5, if_false]
      refine Reads.bind0 (Reads.ignore_no h3 h5) (Reads.bind1 (Reads.ignore_yes h3 h6) ?_)
      exact Reads.bind hn (Reads.bind_last ha Reads.pure)

/-- The first token of a member of a group. -/
theorem item_head {i : Item} (hi : i.Ok) (r : List Token) :
    ∃ k' r', i.toks ++ r = k' :: r' ∧ Plain k' ∧ k'.t ∈ [TT.identifier, .kwConst, .kwFunction] := by
  unfold Item.toks
  have h1 := hi.kw
  have h2 := hi.start
  generalize i.kw = kw at h1 h2 ⊢
  cases kw with
  | none =>
    obtain ⟨h3, h4⟩ := h2 rfl
    obtain ⟨hid, -⟩ := hi.name.words i.name.id (List.mem_cons_self ..)
    have e2 : i.name.toks = i.name.id :: Ex.pathToks i.name.path := by simp [QName.toks, h3, Ex.pathToks]
    exact ⟨i.name.id, _, by rw [e2]; rfl, hid, by rw [h4]; decide⟩
  | some kw =>
    obtain ⟨h3, h4⟩ := h1 kw rfl
    exact ⟨kw, _, rfl, h3, by rcases h4 with h | h <;> rw [h] <;> decide⟩

theorem stop_comma (h : IsComma k) : Stop k := ⟨h.1, by rw [h.2]; decide, by rw [h.2]; decide⟩

theorem stop_of (h : Plain k) {t : TT} (ht : k.t = t) (h1 : t ≠ .namespaceSeparator) (h2 : t ≠ .kwAs) : Stop k :=
  ⟨h, by rwa [ht], by rwa [ht]⟩

/-- The tokens of further members. -/
def moreToks (is : List (Token × Item)) : List Token := is.flatMap fun p => p.1 :: p.2.toks

theorem items_loop {is : List (Token × Item)} {t : Option Token} {cc : Token}
    (h5 : ∀ p ∈ is, IsComma p.1 ∧ p.2.Ok) (h6 : ∀ k ∈ t, IsComma k) (h7 : Plain cc ∧ cc.t = .closeCurly)
    (acc : List Node) :
    LoopReads doc .other (fun r (is : List Node) => do
      match ← consumeOrIgnore .comma with
      | some _ => do
        if ← nextOneOf [.identifier, .kwConst, .kwFunction] then do
          let i ← symbolImport r
          pure (.inl (is ++ [i]))
        else pure (.inr is)
      | none => pure (.inr is)) acc (moreToks is ++ t.toList) (cc :: rest) (acc ++ is.map fun p => p.2.node) := by
  induction is generalizing acc with
  | nil =>
    simp only [moreToks, List.flatMap_nil, List.nil_append, List.map_nil, List.append_nil]
    refine LoopReads.stop ?_
    cases t with
    | none => exact Reads.bind_last (Reads.ignore_no h7.1 (by rw [h7.2]; decide)) Reads.pure
    | some c =>
      refine Reads.bind1 (ts := []) (Reads.ignore_yes (h6 c rfl).1 (h6 c rfl).2) ?_
      exact Reads.bind0 (Reads.nextOneOf_no h7.1 (by rw [h7.2]; decide)) Reads.pure
  | cons p is ih =>
    obtain ⟨hc, hi⟩ := h5 p (List.mem_cons_self ..)
    have hrest : ∀ q ∈ is, IsComma q.1 ∧ q.2.Ok := fun q hq => h5 q (List.mem_cons_of_mem _ hq)
    have e : moreToks (p :: is) ++ t.toList = (p.1 :: p.2.toks) ++ (moreToks is ++ t.toList) := by simp [moreToks]
    rw [e]
    have hstop : ∃ k' r', (moreToks is ++ t.toList) ++ cc :: rest = k' :: r' ∧ Stop k' := by
      cases is with
      | cons q is => exact ⟨q.1, _, rfl, stop_comma (hrest q (List.mem_cons_self ..)).1⟩
      | nil =>
        cases t with
        | none => exact ⟨cc, rest, rfl, stop_of h7.1 h7.2 (by decide) (by decide)⟩
        | some c => exact ⟨c, _, rfl, stop_comma (h6 c rfl)⟩
    obtain ⟨k', r', e', hk'⟩ := hstop
    refine LoopReads.step (b' := acc ++ [p.2.node]) ?_ ?_
    · rw [e']
      refine Reads.bind1 (Reads.ignore_yes hc.1 hc.2) ?_
      obtain ⟨k1, r1, e1, hk1, hk2⟩ := item_head hi (k' :: r')
      refine Reads.bind0 (a := true) ?_ ?_
      · rw [e1]
        exact Reads.nextOneOf_yes hk1 hk2
      · exact Reads.bind_last (item_reads hi hk') Reads.pure
    · have := ih hrest (acc ++ [p.2.node])
      simpa using this

/-- The node of a clause of a plain statement. -/
def Clause.node (token : Token) : Clause → Node
  | .one q a => .useDeclaration (some token) q.node (a.map (·.1)) (a.map (·.2))
  | .group q sep oc i is _ cc =>
    .groupedUse token (.typeRef ⟨q.toks ++ [sep], false⟩) oc (i.node :: is.map fun p => p.2.node) cc

theorem clause_reads {c : Clause} {token : Token} (hc : c.Ok) (hk : Stop k) :
    Reads doc (fun r => useImport r token) c.toks (k :: rest) (c.node token) := by
  unfold useImport
  cases hc with
  | @one q a h1 h2 =>
    obtain ⟨k', r', e, hk1, hk2⟩ := alias_head (rest := rest) h2 hk
    obtain ⟨init, last, h3, h4, h5⟩ := nsRef_reads_one (doc := doc) (rest := r') h1 hk1 hk2
    simp only [Clause.toks, Clause.node]
    refine Reads.bind (a := (init, last)) (by rw [e]; exact h3) ?_
    simp only [h4, h5, if_false]
    exact Reads.bind_last (alias_reads h2 hk) Reads.pure
  | @group q sep oc i is t cc h1 h2 h3 h4 h5 h6 h7 =>
    have e : (Clause.group q sep oc i is t cc).toks =
        (q.toks ++ [sep]) ++ (oc :: (i.toks ++ (moreToks is ++ t.toList) ++ [cc])) := by
      simp [Clause.toks, moreToks]
    rw [e]
    have hoc : oc.isIdentifier = false := by
      show oc.t.isIdentifier = false
      rw [h3.2]; rfl
    refine Reads.bind (a := (q.toks, sep)) (nsRef_reads_group h1 h2 h3.1 hoc) ?_
    simp only [h2.2, if_true]
    refine Reads.bind1 (Reads.consume h3.1 h3.2) ?_
    refine Reads.bind (a := i.node :: is.map fun p => p.2.node) ?_ ?_
    · unfold symbolImports
      have hstop : ∃ k' r', (moreToks is ++ t.toList) ++ cc :: (k :: rest) = k' :: r' ∧ Stop k' := by
        cases is with
        | cons q is => exact ⟨q.1, _, rfl, stop_comma (h5 q (List.mem_cons_self ..)).1⟩
        | nil =>
          cases t with
          | none => exact ⟨cc, _, rfl, stop_of h7.1 h7.2 (by decide) (by decide)⟩
          | some c => exact ⟨c, _, rfl, stop_comma (h6 c rfl)⟩
      obtain ⟨k', r', e', hk'⟩ := hstop
      refine Reads.bind (a := i.node) ?_ ?_
      · show Reads doc symbolImport i.toks ((moreToks is ++ t.toList) ++ cc :: (k :: rest)) i.node
        rw [e']
        exact item_reads h4 hk'
      · exact Reads.loop (items_loop (rest := k :: rest) h5 h6 h7 [i.node])
    · exact Reads.bind1 (ts := []) (Reads.consume h7.1 h7.2) Reads.pure

/-- The node of a clause of a statement about functions or constants. -/
def Clause.nodeAs (f : Node → Option Token → Option Token → Node) : Clause → Node
  | .one q a => f q.node (a.map (·.1)) (a.map (·.2))
  | .group .. => .emptyScript

theorem clauses_plain {token semi : Token} {more : List (Token × Clause)} {first : Clause} (h1 : first.Ok)
    (hm : ∀ p ∈ more, IsComma p.1 ∧ p.2.Ok) (hs : Plain semi ∧ semi.t = .semicolon) (acc : List Node) :
    LoopReads doc .other (fun r (is : List Node) => do
      let i ← useImport r token
      match ← consumeOrIgnore .comma with
      | some _ => pure (.inl (is ++ [i]))
      | none => do
        consumeOrFfAfter .semicolon [.semicolon]
        pure (.inr (is ++ [i]))) acc (first.toks ++ (more.flatMap (fun p => p.1 :: p.2.toks) ++ [semi])) rest
      (acc ++ first.node token :: more.map fun p => p.2.node token) := by
  induction more generalizing acc first with
  | nil =>
    simp only [List.flatMap_nil, List.nil_append, List.map_nil]
    refine LoopReads.stop (Reads.bind (clause_reads h1 (stop_of hs.1 hs.2 (by decide) (by decide))) ?_)
    refine Reads.bind0 (Reads.ignore_no hs.1 (by rw [hs.2]; decide)) ?_
    exact Reads.bind1 (ts := []) (Reads.ffAfter_yes hs.1 hs.2) Reads.pure
  | cons p more ih =>
    obtain ⟨hc, hp⟩ := hm p (List.mem_cons_self ..)
    have e : first.toks ++ ((p :: more).flatMap (fun p => p.1 :: p.2.toks) ++ [semi]) =
        (first.toks ++ [p.1]) ++ (p.2.toks ++ (more.flatMap (fun p => p.1 :: p.2.toks) ++ [semi])) := by simp
    rw [e]
    refine LoopReads.step (b' := acc ++ [first.node token]) ?_ ?_
    · refine Reads.bind (clause_reads h1 (stop_comma hc)) ?_
      exact Reads.bind1 (ts := []) (Reads.ignore_yes hc.1 hc.2) Reads.pure
    · have := ih hp (fun q hq => hm q (List.mem_cons_of_mem _ hq)) (acc ++ [first.node token])
      simpa using this

theorem clauses_as {f : Node → Option Token → Option Token → Node} {semi : Token} {more : List (Token × Clause)}
    {first : Clause} (h1 : first.Ok ∧ first.isOne) (hm : ∀ p ∈ more, IsComma p.1 ∧ p.2.Ok ∧ p.2.isOne)
    (hstop : Stop semi) (hs : semi.t ≠ .comma) (acc : List Node) :
    LoopReads doc .other (fun r (is : List Node) => do
      let n ← nonEmptyTypeRef r
      let (aliased, a) ← importAlias
      match ← consumeOrIgnore .comma with
      | some _ => pure (.inl (is ++ [f n aliased a]))
      | none => pure (.inr (is ++ [f n aliased a]))) acc (first.toks ++ more.flatMap (fun p => p.1 :: p.2.toks))
      (semi :: rest) (acc ++ first.nodeAs f :: more.map fun p => p.2.nodeAs f) := by
  induction more generalizing acc first with
  | nil =>
    simp only [List.flatMap_nil, List.append_nil, List.map_nil]
    obtain ⟨h1, h1'⟩ := h1
    cases h1 with
    | group => exact h1'.elim
    | @one q a h2 h3 =>
      obtain ⟨k', r', e, hk1, hk2⟩ := alias_head (rest := rest) h3 hstop
      refine LoopReads.stop (Reads.bind (a := q.node) (by rw [e]; exact name_reads h2 hk1 hk2) ?_)
      refine Reads.bind_last (alias_reads h3 hstop) ?_
      exact Reads.bind0 (Reads.ignore_no hstop.plain hs) Reads.pure
  | cons p more ih =>
    obtain ⟨hc, hp⟩ := hm p (List.mem_cons_self ..)
    have e : first.toks ++ (p :: more).flatMap (fun p => p.1 :: p.2.toks) =
        (first.toks ++ [p.1]) ++ (p.2.toks ++ more.flatMap (fun p => p.1 :: p.2.toks)) := by simp
    rw [e]
    refine LoopReads.step (b' := acc ++ [first.nodeAs f]) ?_ ?_
    · obtain ⟨h1, h1'⟩ := h1
      cases h1 with
      | group => exact h1'.elim
      | @one q a h2 h3 =>
        have hstop : Stop p.1 := stop_comma hc
        generalize (p.2.toks ++ more.flatMap (fun p => p.1 :: p.2.toks)) ++ semi :: rest = rest'
        obtain ⟨k', r', e, hk1, hk2⟩ := alias_head (rest := rest') h3 hstop
        have e3 : (Clause.one q a).toks ++ [p.1] = q.toks ++ (AliasC.toks a ++ [p.1]) := by simp [Clause.toks]
        rw [e3]
        refine Reads.bind (a := q.node) ?_ (Reads.bind (alias_reads h3 hstop) ?_)
        · have e4 : AliasC.toks a ++ [p.1] ++ rest' = k' :: r' := by rw [← e]; simp
          rw [e4]
          exact name_reads h2 hk1 hk2
        · exact Reads.bind1 (ts := []) (Reads.ignore_yes hc.1 hc.2) Reads.pure
    · have := ih hp (fun q hq => hm q (List.mem_cons_of_mem _ hq)) (acc ++ [first.nodeAs f])
      simpa using this

/-- The node of a statement. -/
def UseStmt.node (u : UseStmt) : UseKind → Node
  | .plain => .useStatement u.use (u.clauses.map (Clause.node u.use))
  | .function => .useFunctionStatement u.use (u.clauses.map (Clause.nodeAs (Node.useFunction (some u.use))))
  | .const => .useConstStatement u.use (u.clauses.map (Clause.nodeAs (Node.useConst (some u.use))))

/-- First token of a clause. -/
theorem clause_head {c : Clause} (hc : c.Ok) (r : List Token) (h1 : ∀ q a, c = .one q a → q.ns = none →
      q.id.t ≠ .kwFunction ∧ q.id.t ≠ .kwConst)
    (h2 : ∀ q sep oc i is t cc, c = .group q sep oc i is t cc → q.ns = none →
      q.id.t ≠ .kwFunction ∧ q.id.t ≠ .kwConst) :
    ∃ k' r', c.toks ++ r = k' :: r' ∧ Plain k' ∧ k'.t ≠ .kwFunction ∧ k'.t ≠ .kwConst := by
  have key : ∀ q : QName, q.Ok → (q.ns = none → q.id.t ≠ .kwFunction ∧ q.id.t ≠ .kwConst) → ∀ r,
      ∃ k' r', q.toks ++ r = k' :: r' ∧ Plain k' ∧ k'.t ≠ .kwFunction ∧ k'.t ≠ .kwConst := by
    intro q hq hn r
    have h3 := hq.ns
    unfold QName.toks
    generalize q.ns = ns at hn h3
    cases ns with
    | none => exact ⟨q.id, _, rfl, (hq.words q.id (List.mem_cons_self ..)).1, hn rfl⟩
    | some n => exact ⟨n, _, rfl, (h3 n rfl).1, by rw [(h3 n rfl).2]; decide, by rw [(h3 n rfl).2]; decide⟩
  cases hc with
  | @one q a h3 h4 =>
    simp only [Clause.toks, List.append_assoc]
    exact key q h3 (h1 q a rfl) _
  | @group q sep oc i is t cc h3 =>
    simp only [Clause.toks, List.append_assoc]
    exact key q h3 (h2 q sep oc i is t cc rfl) _

/-- The parser reads a `use` statement completely and without an error. -/
theorem use_reads {u : UseStmt} {kind : UseKind} (hu : u.Ok kind) :
    Reads doc useCase u.toks rest (u.node kind) := by
  unfold useCase UseStmt.toks
  refine Reads.bind1 (Reads.consume hu.use.1 hu.use.2) ?_
  have hkw := hu.kw
  have hfirst := hu.clauses u.first (List.mem_cons_self ..)
  have hmore : ∀ p ∈ u.more, IsComma p.1 ∧ p.2.Ok ∧ (kind ≠ .plain → p.2.isOne) := fun p hp =>
    ⟨hu.commas p hp, hu.clauses p.2 (List.mem_cons_of_mem _ (List.mem_map_of_mem hp))⟩
  cases kind with
  | plain =>
    have hkw : u.kw = none := hkw
    rw [hkw]
    obtain ⟨k', r', e, hk1, hk2, hk3⟩ := clause_head hfirst.1
      ((u.more.flatMap (fun p => p.1 :: p.2.toks) ++ [u.semi]) ++ rest) (hu.start rfl) (hu.startGroup rfl)
    have e' : ([] ++ (u.first.toks ++ (u.more.flatMap (fun p => p.1 :: p.2.toks) ++ [u.semi]))) ++ rest = k' :: r' := by
      rw [← e]; simp
    refine Reads.bind0 (a := none) (by rw [Option.toList, e']; exact Reads.ignore_no hk1 hk2) ?_
    refine Reads.bind0 (a := none) (by rw [Option.toList, e']; exact Reads.ignore_no hk1 hk3) ?_
    unfold useStatement UseStmt.node UseStmt.clauses
    refine Reads.bind_last (Reads.loop (clauses_plain hfirst.1 (fun p hp => ⟨(hmore p hp).1, (hmore p hp).2.1⟩)
      hu.semi [])) ?_
    simpa [Function.comp_def] using Reads.pure
  | function =>
    obtain ⟨kw, hkw, h1, h2⟩ := hkw
    rw [hkw]
    refine Reads.bind1 (Reads.ignore_yes h1 h2) ?_
    unfold useFunctionStatement UseStmt.node UseStmt.clauses
    have e : u.first.toks ++ (u.more.flatMap (fun p => p.1 :: p.2.toks) ++ [u.semi]) =
      (u.first.toks ++ u.more.flatMap (fun p => p.1 :: p.2.toks)) ++ [u.semi] := by simp
    show Reads doc _ (u.first.toks ++ (u.more.flatMap (fun p => p.1 :: p.2.toks) ++ [u.semi])) rest _
    rw [e]
    refine Reads.bind (Reads.loop (clauses_as (f := Node.useFunction (some u.use)) ⟨hfirst.1, hfirst.2 (by decide)⟩
      (fun p hp => ⟨(hmore p hp).1, (hmore p hp).2.1, (hmore p hp).2.2 (by decide)⟩)
      (stop_of hu.semi.1 hu.semi.2 (by decide) (by decide)) (by rw [hu.semi.2]; decide) [])) ?_
    refine Reads.bind1 (ts := []) (Reads.ffAfter_yes hu.semi.1 hu.semi.2) ?_
    simpa [Function.comp_def] using Reads.pure
  | const =>
    obtain ⟨kw, hkw, h1, h2⟩ := hkw
    rw [hkw]
    refine Reads.bind0 (Reads.ignore_no h1 (by rw [h2]; decide)) ?_
    refine Reads.bind1 (Reads.ignore_yes h1 h2) ?_
    unfold useConstStatement UseStmt.node UseStmt.clauses
    have e : u.first.toks ++ (u.more.flatMap (fun p => p.1 :: p.2.toks) ++ [u.semi]) =
      (u.first.toks ++ u.more.flatMap (fun p => p.1 :: p.2.toks)) ++ [u.semi] := by simp
    show Reads doc _ (u.first.toks ++ (u.more.flatMap (fun p => p.1 :: p.2.toks) ++ [u.semi])) rest _
    rw [e]
    refine Reads.bind (Reads.loop (clauses_as (f := Node.useConst (some u.use)) ⟨hfirst.1, hfirst.2 (by decide)⟩
      (fun p hp => ⟨(hmore p hp).1, (hmore p hp).2.1, (hmore p hp).2.2 (by decide)⟩)
      (stop_of hu.semi.1 hu.semi.2 (by decide) (by decide)) (by rw [hu.semi.2]; decide) [])) ?_
    refine Reads.bind1 (ts := []) (Reads.ffAfter_yes hu.semi.1 hu.semi.2) ?_
    simpa [Function.comp_def] using Reads.pure

/-! ## `collect_uses` on the nodes -/

/-- The imports of a clause as values of the code. -/
def Clause.syms : Clause → List SymbolImport
  | .one q a => [⟨⟨q.toks, false⟩, a.map (·.2)⟩]
  | .group q sep _ i is _ _ =>
    (i :: is.map (·.2)).map fun j => ⟨⟨q.toks ++ [sep] ++ j.name.toks, false⟩, j.as.map (·.2)⟩

theorem collectUsesL_map {α : Type} {f : α → Node} {g : α → List SymbolImport} {p : TypeRef} :
    ∀ (l : List α), (∀ a ∈ l, collectUses (f a) p = some (g a)) → collectUsesL (l.map f) p = some (l.flatMap g)
  | [], _ => rfl
  | a :: l, h => by
    have h1 := h a (List.mem_cons_self ..)
    have h2 := collectUsesL_map l (fun b hb => h b (List.mem_cons_of_mem _ hb))
    simp only [List.map_cons, collectUsesL, h1, h2, List.flatMap_cons]
    rfl

theorem collectUses_item (i : Item) (ts : List Token) :
    collectUses i.node ⟨ts, false⟩ = some [⟨⟨ts ++ i.name.toks, false⟩, i.as.map (·.2)⟩] := by
  unfold Item.node
  split
  · simp only [collectUses, QName.node, withAlias, TypeRef.append]
  · split <;> simp only [collectUses, QName.node, withAlias, TypeRef.append]

theorem collectUses_clause (c : Clause) (token : Token) :
    collectUses (c.node token) ⟨[], false⟩ = some c.syms := by
  cases c with
  | one q a => simp only [Clause.node, QName.node, collectUses, withAlias, TypeRef.append, Clause.syms, List.nil_append]
  | group q sep oc i is t cc =>
    simp only [Clause.node, collectUses, TypeRef.append, List.nil_append, collectUses_item]
    have := collectUsesL_map (f := fun p : Token × Item => p.2.node)
      (g := fun p => [⟨⟨q.toks ++ [sep] ++ p.2.name.toks, false⟩, p.2.as.map (·.2)⟩])
      (p := ⟨q.toks ++ [sep], false⟩) is (fun p _ => collectUses_item ..)
    rw [this]
    rw [← List.map_eq_flatMap]
    simp only [Clause.syms, List.map_cons, List.map_map]
    rfl

theorem collectUses_clauseAs {f : Node → Option Token → Option Token → Node}
    (hf : ∀ n a b p, collectUses (f n a b) p = withAlias (collectUses n p) b) {c : Clause} (hc : c.isOne) :
    collectUses (c.nodeAs f) ⟨[], false⟩ = some c.syms := by
  cases c with
  | group => exact hc.elim
  | one q a =>
    simp only [Clause.nodeAs, hf, QName.node, collectUses, withAlias, TypeRef.append, Clause.syms, List.nil_append]

/-- `collect_uses` of the node of a statement. -/
theorem collectUses_stmt {u : UseStmt} {kind : UseKind} (hu : u.Ok kind) :
    collectUses (u.node kind) ⟨[], false⟩ = some (u.clauses.flatMap Clause.syms) := by
  cases kind with
  | plain =>
    simp only [UseStmt.node, collectUses]
    exact collectUsesL_map _ fun c _ => collectUses_clause c _
  | function =>
    simp only [UseStmt.node, collectUses]
    exact collectUsesL_map _ fun c hc => collectUses_clauseAs (fun n a b p => by simp only [collectUses])
      ((hu.clauses c hc).2 (by decide))
  | const =>
    simp only [UseStmt.node, collectUses]
    exact collectUsesL_map _ fun c hc => collectUses_clauseAs (fun n a b p => by simp only [collectUses])
      ((hu.clauses c hc).2 (by decide))

/-! ## The texts -/

theorem display_ident {k : Token} (h : k.t = .identifier ∧ k.label.isSome = true) :
    k.display = some (wordText k) := by
  obtain ⟨l, hl⟩ := Option.isSome_iff_exists.1 h.2
  simp only [Token.display, hl, h.1, wordText, Option.getD]

theorem display_sep {k : Token} (h : k.t = .namespaceSeparator) (hl : k.label = none) : k.display = some ['\\'] := by
  simp only [Token.display, hl, h]
  rfl

theorem displayAll_append (a b : List Token) :
    TypeRef.displayAll (a ++ b) = (do let x ← TypeRef.displayAll a; let y ← TypeRef.displayAll b; pure (x ++ y)) := by
  induction a with
  | nil =>
    simp only [List.nil_append, TypeRef.displayAll]
    cases TypeRef.displayAll b <;> rfl
  | cons k a ih =>
    simp only [List.cons_append, TypeRef.displayAll, ih]
    cases k.display with
    | none => rfl
    | some x =>
      cases TypeRef.displayAll a with
      | none => rfl
      | some y =>
        cases TypeRef.displayAll b with
        | none => rfl
        | some z => simp

theorem displayAll_cons (k : Token) (b : List Token) :
    TypeRef.displayAll (k :: b) = (do let x ← k.display; let y ← TypeRef.displayAll b; pure (x ++ y)) := rfl

theorem displayAll_path {id : Token} {path : List (Token × Token)} (hid : id.t = .identifier ∧ id.label.isSome = true)
    (hw : ∀ p ∈ path, p.2.t = .identifier ∧ p.2.label.isSome = true)
    (hs : ∀ p ∈ path, p.1.t = .namespaceSeparator ∧ p.1.label = none) :
    TypeRef.displayAll (id :: path.flatMap fun p => [p.1, p.2]) =
      some (joinWords ((id :: path.map (·.2)).map wordText)) := by
  induction path generalizing id with
  | nil =>
    simp only [List.flatMap_nil, displayAll_cons, TypeRef.displayAll, display_ident hid, List.map_nil, List.map_cons, joinWords]
    simp
  | cons p path ih =>
    have h1 := hs p (List.mem_cons_self ..)
    have h2 := ih (hw p (List.mem_cons_self ..)) (fun q hq => hw q (List.mem_cons_of_mem _ hq))
      (fun q hq => hs q (List.mem_cons_of_mem _ hq))
    have e : (id :: (p :: path).flatMap fun p => [p.1, p.2]) = id :: p.1 :: (p.2 :: path.flatMap fun p => [p.1, p.2]) := by
      simp
    rw [e, displayAll_cons, displayAll_cons, display_ident hid, display_sep h1.1 h1.2, h2]
    rfl

theorem displayAll_name {q : QName} (hq : q.Ok) (hl : q.Labelled) : TypeRef.displayAll q.toks = some q.text := by
  have h1 := displayAll_path (id := q.id) (path := q.path) (hl.words q.id (List.mem_cons_self ..))
    (fun p hp => hl.words p.2 (List.mem_cons_of_mem _ (List.mem_map_of_mem hp)))
    (fun p hp => ⟨(hq.seps p hp).2, hl.seps p hp⟩)
  have h2 := hq.ns
  have h3 := hl.ns
  unfold QName.toks QName.text QName.idents
  generalize q.ns = ns at h2 h3
  cases ns with
  | none => simpa using h1
  | some n =>
    show TypeRef.displayAll (n :: _) = _
    rw [displayAll_cons, display_sep (h2 n rfl).2 (h3 n rfl)]
    erw [h1]
    rfl

theorem getLast_toks (q : QName) (ts : List Token) :
    (ts ++ q.toks).getLast? = some (q.idents.getLast (by simp [QName.idents])) := by
  have key : ∀ (path : List (Token × Token)) (ts : List Token) (id : Token),
      (ts ++ id :: path.flatMap fun p => [p.1, p.2]).getLast? =
        some ((id :: path.map (·.2)).getLast (by simp)) := by
    intro path
    induction path with
    | nil => intro ts id; simp
    | cons p path ih =>
      intro ts id
      have := ih (ts ++ [id, p.1]) p.2
      simp only [List.append_assoc, List.cons_append, List.nil_append] at this
      simp only [List.flatMap_cons, List.cons_append, List.nil_append, List.map_cons]
      rw [this]
      simp [List.getLast_cons]
  unfold QName.toks QName.idents
  rw [← List.append_assoc]
  exact key _ _ _

theorem name_spec {q : QName} (hl : q.Labelled) {a : AliasC} (ha : AliasC.Labelled a) (ts : List Token) :
    SymbolImport.name ⟨⟨ts ++ q.toks, false⟩, a.map (·.2)⟩ = some (localName q a) := by
  cases a with
  | some p =>
    obtain ⟨l, h⟩ := Option.isSome_iff_exists.1 (ha p rfl)
    simp [SymbolImport.name, localName, wordText, h]
  | none =>
    have h := (hl.words (q.idents.getLast (by simp [QName.idents])) (List.getLast_mem _)).2
    obtain ⟨l, h⟩ := Option.isSome_iff_exists.1 h
    simp only [SymbolImport.name, Option.map_none, TypeRef.tip, getLast_toks, h, localName, QName.lastWord, wordText,
      Option.getD]

theorem syms_spec {c : Clause} (hc : c.Ok) (hl : c.Labelled) :
    c.syms.map (fun i => (i.fullName, i.name)) = c.imports.map fun p => (some p.1, some p.2) := by
  cases hc with
  | @one q a h1 h2 =>
    obtain ⟨h3, h4⟩ := hl
    have := name_spec h3 h4 []
    simp only [List.nil_append] at this
    simp only [Clause.syms, Clause.imports, List.map_cons, List.map_nil, SymbolImport.fullName, TypeRef.toFqdn,
      displayAll_name h1 h3, this]
  | @group q sep oc i is t cc h1 h2 h3 h4 h5 h6 h7 =>
    obtain ⟨h8, h9, h10⟩ := hl
    simp only [Clause.syms, Clause.imports, List.map_map]
    apply List.map_congr_left
    intro j hj
    have hj' : j.Ok := by
      rcases List.mem_cons.1 hj with rfl | hj
      · exact h4
      · obtain ⟨p, hp, rfl⟩ := List.mem_map.1 hj
        exact (h5 p hp).2
    have e1 : TypeRef.displayAll (q.toks ++ [sep] ++ j.name.toks) = some (q.text ++ '\\' :: j.name.text) := by
      rw [displayAll_append, displayAll_append, displayAll_name h1 h8, displayAll_name hj'.name (h10 j hj).1,
        displayAll_cons, display_sep h2.2 h9]
      simp [TypeRef.displayAll]
    simp only [Function.comp, SymbolImport.fullName, TypeRef.toFqdn, e1, name_spec (h10 j hj).1 (h10 j hj).2]

/-! ## The theorems -/

/-- C53: the parser reads every `use` statement without an error, and `collect_uses` turns the node it returns into exactly
the imports of the statement: one for each name, with the prefix of its group, and with its alias or its last word as local
name.  Restricted to names whose words are no reserved words (see `C53_fails_generator`) and, for the statements about
functions and constants, to statements without groups. -/
theorem C53_expands_partial {u : UseStmt} {kind : UseKind} (hu : u.Ok kind) (hl : u.Labelled) (rest : List Token) :
    ∃ n is, Reads doc useCase u.toks rest n ∧ collectUses n ⟨[], false⟩ = some is ∧
      is.map (fun i => (i.fullName, i.name)) = u.imports.map fun p => (some p.1, some p.2) := by
  refine ⟨_, _, use_reads hu, collectUses_stmt hu, ?_⟩
  unfold UseStmt.imports
  have key : ∀ cs : List Clause, (∀ c ∈ cs, c.Ok ∧ c.Labelled) →
      (cs.flatMap Clause.syms).map (fun i => (i.fullName, i.name)) =
        (cs.flatMap Clause.imports).map fun p => (some p.1, some p.2) := by
    intro cs h
    induction cs with
    | nil => rfl
    | cons c cs ih =>
      have h1 := h c (List.mem_cons_self ..)
      have h2 := syms_spec h1.1 h1.2
      simp only [List.flatMap_cons, List.map_append, h2, ih fun d hd => h d (List.mem_cons_of_mem _ hd)]
  exact key _ fun c hc => ⟨(hu.clauses c hc).1, hl c hc⟩

/-- One import per name also if words are reserved. -/
theorem C53_one_per_name {u : UseStmt} {kind : UseKind} (hu : u.Ok kind) (rest : List Token) :
    ∃ n is, Reads doc useCase u.toks rest n ∧ collectUses n ⟨[], false⟩ = some is ∧
      is.length = u.imports.length := by
  refine ⟨_, _, use_reads hu, collectUses_stmt hu, ?_⟩
  have : ∀ c : Clause, c.syms.length = c.imports.length := by
    intro c
    cases c <;> simp [Clause.syms, Clause.imports]
  simp [UseStmt.imports, List.length_flatMap, this]

/-! ## No crash, whatever the tokens -/

/-- All results of a parser function satisfy `Q`. -/
def Ret (f : P α) (Q : α → Prop) : Prop := ∀ s a s', f s = .ok a s' → Q a

section
variable {α β : Type} {f : P α} {g : α → P β} {Q : α → Prop} {R : β → Prop}

theorem Ret.bind (h1 : Ret f Q) (h2 : ∀ a, Q a → Ret (g a) R) : Ret (f >>= g) R := by
  intro s b s' h
  rw [bind_run] at h
  cases hf : f s with
  | ok a s1 => rw [hf] at h; exact h2 a (h1 s a s1 hf) s1 b s' h
  | err e s1 => rw [hf] at h; cases h
  | panic => rw [hf] at h; cases h
  | diverge x => rw [hf] at h; cases h

theorem Ret.any : Ret f fun _ => True := fun _ _ _ _ => trivial

theorem Ret.bind' (h2 : ∀ a, Ret (g a) R) : Ret (f >>= g) R := Ret.bind Ret.any fun a _ => h2 a

theorem Ret.pure {a : α} (h : Q a) : Ret (Pure.pure a) Q := by
  intro s b s' e
  injection e with e
  exact e ▸ h

theorem Ret.loop {site : Site} {body : β → P (β ⊕ α)} {I : β → Prop}
    (hb : ∀ b, I b → Ret (body b) (Sum.elim I Q)) :
    ∀ (n : Nat) (b : β), I b → Ret (loopP site n body b) Q := by
  intro n
  induction n with
  | zero => intro b _ s a s' h; cases h
  | succ n ih =>
    intro b hI
    unfold loopP
    refine Ret.bind (hb b hI) fun x hx => ?_
    cases x with
    | inl b' => exact ih b' hx
    | inr a => exact Ret.pure hx

end

/-- A node that holds a name. -/
def IsName (n : Node) : Prop := ∃ t, n = .typeRef t

theorem nonEmptyTypeRef_ret (r : Rec) : Ret (nonEmptyTypeRef r) IsName := by
  unfold nonEmptyTypeRef
  refine Ret.bind' fun _ => Ret.bind' fun _ => Ret.bind' fun p => ?_
  exact Ret.pure ⟨_, rfl⟩

/-- `collect_uses` does not panic on the node, and yields at least one import. -/
def UseSafe (n : Node) : Prop := ∀ p, ∃ i is, collectUses n p = some (i :: is)

theorem IsName.safe {n : Node} (h : IsName n) : UseSafe n := by
  obtain ⟨t, rfl⟩ := h
  exact fun p => ⟨_, _, by simp only [collectUses]; rfl⟩

theorem safe_alias {n m : Node} {a : Option Token} (h : IsName n)
    (e : ∀ p, collectUses m p = withAlias (collectUses n p) a) : UseSafe m := by
  intro p
  obtain ⟨i, is, hi⟩ := h.safe p
  exact ⟨{ i with «alias» := a }, [], by rw [e, hi]; rfl⟩

theorem safe_list {l : List Node} (h : ∀ n ∈ l, UseSafe n) (p : TypeRef) : ∃ is, collectUsesL l p = some is := by
  induction l with
  | nil => exact ⟨[], rfl⟩
  | cons n l ih =>
    obtain ⟨i, is, h1⟩ := h n (List.mem_cons_self ..) p
    obtain ⟨js, h2⟩ := ih fun m hm => h m (List.mem_cons_of_mem _ hm)
    exact ⟨_, by simp only [collectUsesL, h1, h2]; rfl⟩

theorem symbolImport_ret (r : Rec) : Ret (symbolImport r) UseSafe := by
  unfold symbolImport
  refine Ret.bind' fun o => ?_
  cases o with
  | some _ =>
    refine Ret.bind (nonEmptyTypeRef_ret r) fun n hn => Ret.bind' fun a => ?_
    exact Ret.pure (safe_alias (a := a.2) hn fun p => by simp only [collectUses])
  | none =>
    refine Ret.bind' fun o => ?_
    cases o with
    | some _ =>
      refine Ret.bind (nonEmptyTypeRef_ret r) fun n hn => Ret.bind' fun a => ?_
      exact Ret.pure (safe_alias (a := a.2) hn fun p => by simp only [collectUses])
    | none =>
      refine Ret.bind (nonEmptyTypeRef_ret r) fun n hn => Ret.bind' fun a => ?_
      exact Ret.pure (safe_alias (a := a.2) hn fun p => by simp only [collectUses])

/-- All nodes are safe, and there is one. -/
def UseSafeL (l : List Node) : Prop := ∀ n ∈ l, UseSafe n

theorem UseSafeL.snoc {l : List Node} {n : Node} (h : UseSafeL l) (h' : UseSafe n) : UseSafeL (l ++ [n]) := by
  intro m hm
  rcases List.mem_append.1 hm with hm | hm
  · exact h m hm
  · rw [List.mem_singleton.1 hm]; exact h'

theorem safeL_nil : UseSafeL [] := fun _ h => by cases h

theorem symbolImports_ret (r : Rec) : Ret (symbolImports r) fun l => UseSafeL l ∧ l ≠ [] := by
  unfold symbolImports
  refine Ret.bind (symbolImport_ret r) fun i hi => ?_
  refine Ret.loop (I := fun l => UseSafeL l ∧ l ≠ []) (fun l hl => ?_) _ _ ⟨safeL_nil.snoc hi, by simp⟩
  refine Ret.bind' fun o => ?_
  cases o with
  | none => exact Ret.pure hl
  | some _ =>
    refine Ret.bind' fun b => ?_
    cases b with
    | false => exact Ret.pure hl
    | true =>
      refine Ret.bind (symbolImport_ret r) fun j hj => ?_
      exact Ret.pure (by exact ⟨hl.1.snoc hj, by simp⟩)

theorem useImport_ret (r : Rec) (token : Token) : Ret (useImport r token) UseSafe := by
  unfold useImport
  refine Ret.bind' fun x => ?_
  obtain ⟨init, last⟩ := x
  by_cases h : last.t = .namespaceSeparator
  · simp only [h, if_true]
    refine Ret.bind' fun oc => Ret.bind (symbolImports_ret r) fun us hus => Ret.bind' fun cc => Ret.pure ?_
    intro p
    obtain ⟨h1, h2⟩ := hus
    cases us with
    | nil => exact (h2 rfl).elim
    | cons u us =>
      have e : ∀ q, ∃ i is, collectUses u q = some (i :: is) := h1 u (List.mem_cons_self ..)
      have e2 : ∀ q, ∃ is, collectUsesL us q = some is := safe_list fun n hn => h1 n (List.mem_cons_of_mem _ hn)
      simp only [collectUses]
      obtain ⟨i, is, h3⟩ := e (p.append ⟨init ++ [last], false⟩)
      obtain ⟨js, h4⟩ := e2 (p.append ⟨init ++ [last], false⟩)
      exact ⟨i, is ++ js, by rw [h3, h4]; rfl⟩
  · simp only [h, if_false]
    refine Ret.bind' fun a => Ret.pure ?_
    exact safe_alias (n := .typeRef ⟨init ++ [last], false⟩) (a := a.2) ⟨_, rfl⟩ fun p => by simp only [collectUses]

/-- C53: whatever the tokens, with any amount of fuel and in any state, `collect_uses` does not panic on the node the
parser returns for a `use` statement. -/
theorem C53_collect_no_crash (r : Rec) (s s' : PSt) (n : Node) (h : useCase r s = .ok n s') (p : TypeRef) :
    ∃ is, collectUses n p = some is := by
  have key : Ret (useCase r) fun n => ∀ p, ∃ is, collectUses n p = some is := by
    unfold useCase
    refine Ret.bind' fun token => Ret.bind' fun o => ?_
    have step : ∀ (f : Node → Option Token → Option Token → Node),
        (∀ n a b p, collectUses (f n a b) p = withAlias (collectUses n p) b) →
        Ret (loopP .other r.fuel (fun (is : List Node) => do
          let n ← nonEmptyTypeRef r
          let (aliased, a) ← importAlias
          match ← consumeOrIgnore .comma with
          | some _ => pure (.inl (is ++ [f n aliased a]))
          | none => pure (.inr (is ++ [f n aliased a]))) []) UseSafeL := by
      intro f hf
      refine Ret.loop (I := UseSafeL) (fun l hl => ?_) _ _ safeL_nil
      refine Ret.bind (nonEmptyTypeRef_ret r) fun m hm => Ret.bind' fun a => Ret.bind' fun o => ?_
      have hs : UseSafeL (l ++ [f m a.1 a.2]) := hl.snoc (safe_alias hm fun p => hf ..)
      cases o <;> exact Ret.pure (by exact hs)
    cases o with
    | some _ =>
      refine Ret.bind (step (Node.useFunction (some token)) fun n a b p => by simp only [collectUses]) fun l hl => ?_
      refine Ret.bind' fun _ => Ret.pure fun p => ?_
      simp only [collectUses]
      exact safe_list hl p
    | none =>
      refine Ret.bind' fun o => ?_
      cases o with
      | some _ =>
        refine Ret.bind (step (Node.useConst (some token)) fun n a b p => by simp only [collectUses]) fun l hl => ?_
        refine Ret.bind' fun _ => Ret.pure fun p => ?_
        simp only [collectUses]
        exact safe_list hl p
      | none =>
        refine Ret.bind (Q := UseSafeL) ?_ fun l hl => Ret.pure fun p => ?_
        · refine Ret.loop (I := UseSafeL) (fun l hl => ?_) _ _ safeL_nil
          refine Ret.bind (useImport_ret r token) fun i hi => Ret.bind' fun o => ?_
          have hs : UseSafeL (l ++ [i]) := hl.snoc hi
          cases o with
          | some _ => exact Ret.pure (by exact hs)
          | none => exact Ret.bind' fun _ => Ret.pure (by exact hs)
        · simp only [collectUses]
          exact safe_list hl p
  exact key s n s' h p

/-! ## Where the code goes wrong -/

/-- Full names and local names of the imports of a text that consists of one statement, and the number of errors; computed
by the scanner, the parser and `collect_uses`. -/
def importsOf (text : Text) : Option (List (Option Text × Option Text) × Nat) :=
  match (tokensOf text).map (ast Unicode.ascii 40) with
  | some (.ok ns s) =>
    (collectUsesL ns ⟨[], false⟩).map fun is => (is.map fun i => (i.fullName, i.name), s.errors.length)
  | _ => none

/-- The class `Generator` of PHP cannot be imported: its import gets the empty local name. -/
theorem C53_fails_generator : importsOf c!"<?php use Generator;" = some ([(some c!"Generator", some [])], 0) := by
  decide +kernel

/-- A missing alias crashes the computation of the local name: `alias.label.clone().unwrap()`. -/
theorem C53_fails_missing_alias : importsOf c!"<?php use A as ;" = some ([(some c!"A", none)], 1) := by
  decide +kernel

/-- So does a reserved word as alias. -/
theorem C53_fails_reserved_alias : (importsOf c!"<?php use A as List;").map (·.1) = some [(some c!"A", none)] := by
  decide +kernel

/-- Groups of functions are rejected, and the imports are lost. -/
theorem C53_fails_function_group :
    (importsOf c!"<?php use function A\\{b, c};").map (·.1) ≠ some [(some c!"A\\b", some c!"b"), (some c!"A\\c", some c!"c")] := by
  decide +kernel

/-- A statement with everything: `use A\B as C, D\{E, function f as g,};`. -/
def useExample : UseStmt where
  use := tok .kwUse 0
  kw := none
  first := .one ⟨none, tok .identifier 4 (some ['A']), [(tok .namespaceSeparator 5, tok .identifier 6 (some ['B']))]⟩
    (some (tok .kwAs 8, tok .identifier 11 (some ['C'])))
  more := [(tok .comma 12, .group ⟨none, tok .identifier 14 (some ['D']), []⟩ (tok .namespaceSeparator 15)
    (tok .openCurly 16) ⟨none, ⟨none, tok .identifier 17 (some ['E']), []⟩, none⟩
    [(tok .comma 18, ⟨some (tok .kwFunction 20), ⟨none, tok .identifier 29 (some ['f']), []⟩,
      some (tok .kwAs 31, tok .identifier 34 (some ['g']))⟩)] (some (tok .comma 35)) (tok .closeCurly 36))]
  semi := tok .semicolon 37

theorem useExample_ok : useExample.Ok .plain where
  use := ⟨⟨rfl, by decide, ⟨_, rfl⟩⟩, rfl⟩
  kw := rfl
  start := fun _ q a h _ => by injection h with h1 h2; subst h1; decide
  startGroup := fun _ q sep oc i is t cc h _ => by cases h
  clauses := by
    intro c hc
    simp only [UseStmt.clauses, useExample, List.map_cons, List.map_nil, List.mem_cons, List.not_mem_nil, or_false] at hc
    refine ⟨?_, fun h => (h rfl).elim⟩
    rcases hc with rfl | rfl
    · refine .one ⟨?_, ?_, ?_⟩ ?_
      · intro k h; cases h
      · intro p h; rw [List.mem_singleton.1 h]; exact ⟨⟨rfl, by decide, ⟨_, rfl⟩⟩, rfl⟩
      · intro k h
        simp only [QName.idents, List.map_cons, List.map_nil, List.mem_cons, List.not_mem_nil, or_false] at h
        rcases h with rfl | rfl <;> exact ⟨⟨rfl, by decide, ⟨_, rfl⟩⟩, rfl⟩
      · intro p h
        injection h with h
        subst h
        exact ⟨⟨⟨rfl, by decide, ⟨_, rfl⟩⟩, rfl⟩, ⟨rfl, by decide, ⟨_, rfl⟩⟩, rfl⟩
    · refine .group ⟨?_, ?_, ?_⟩ ⟨⟨rfl, by decide, ⟨_, rfl⟩⟩, rfl⟩ ⟨⟨rfl, by decide, ⟨_, rfl⟩⟩, rfl⟩ ⟨?_, ⟨?_, ?_, ?_⟩, ?_, ?_⟩ ?_ ?_
        ⟨⟨rfl, by decide, ⟨_, rfl⟩⟩, rfl⟩
      · intro k h; cases h
      · intro p h; cases h
      · intro k h; rw [List.mem_singleton.1 h]; exact ⟨⟨rfl, by decide, ⟨_, rfl⟩⟩, rfl⟩
      · intro k h; cases h
      · intro k h; cases h
      · intro p h; cases h
      · intro k h; rw [List.mem_singleton.1 h]; exact ⟨⟨rfl, by decide, ⟨_, rfl⟩⟩, rfl⟩
      · exact fun _ => ⟨rfl, rfl⟩
      · intro p h; cases h
      · intro p h
        rw [List.mem_singleton.1 h]
        refine ⟨⟨⟨rfl, by decide, ⟨_, rfl⟩⟩, rfl⟩, ⟨?_, ⟨?_, ?_, ?_⟩, ?_, ?_⟩⟩
        · intro k h; injection h with h; subst h; exact ⟨⟨rfl, by decide, ⟨_, rfl⟩⟩, .inl rfl⟩
        · intro k h; cases h
        · intro p h; cases h
        · intro k h; rw [List.mem_singleton.1 h]; exact ⟨⟨rfl, by decide, ⟨_, rfl⟩⟩, rfl⟩
        · exact fun h => by cases h
        · intro p h
          injection h with h
          subst h
          exact ⟨⟨⟨rfl, by decide, ⟨_, rfl⟩⟩, rfl⟩, ⟨rfl, by decide, ⟨_, rfl⟩⟩, rfl⟩
      · intro k h; injection h with h; subst h; exact ⟨⟨rfl, by decide, ⟨_, rfl⟩⟩, rfl⟩
  commas := by intro p h; rw [List.mem_singleton.1 h]; exact ⟨⟨rfl, by decide, ⟨_, rfl⟩⟩, rfl⟩
  semi := ⟨⟨rfl, by decide, ⟨_, rfl⟩⟩, rfl⟩

/-- Its imports. -/
example : useExample.imports = [(c!"A\\B", c!"C"), (c!"D\\E", c!"E"), (c!"D\\f", c!"g")] := by decide

/-- The same statement scanned, parsed and collected. -/
example : importsOf c!"<?php use A\\B as C, D\\{E, function f as g,};" =
    some ([(some c!"A\\B", some c!"C"), (some c!"D\\E", some c!"E"), (some c!"D\\f", some c!"g")], 0) := by decide +kernel

theorem useExample_labelled : useExample.Labelled := by
  intro c hc
  simp only [UseStmt.clauses, useExample, List.map_cons, List.map_nil, List.mem_cons, List.not_mem_nil, or_false] at hc
  rcases hc with rfl | rfl
  · exact ⟨⟨by decide, by decide, by decide⟩, fun p h => (by injection h with h; subst h; rfl)⟩
  · refine ⟨⟨by decide, by decide, by decide⟩, by decide, ?_⟩
    intro j hj
    simp only [List.map_cons, List.map_nil, List.mem_cons, List.not_mem_nil, or_false] at hj
    rcases hj with rfl | rfl
    · exact ⟨⟨by decide, by decide, by decide⟩, fun p h => (by cases h)⟩
    · exact ⟨⟨by decide, by decide, by decide⟩, fun p h => (by injection h with h; subst h; rfl)⟩

example (doc : Token → Option Node) (rest : List Token) :
    ∃ n is, Reads doc useCase useExample.toks rest n ∧ collectUses n ⟨[], false⟩ = some is ∧
      is.map (fun i => (i.fullName, i.name)) = useExample.imports.map fun p => (some p.1, some p.2) :=
  C53_expands_partial useExample_ok useExample_labelled rest

end PhpLs.Parser
