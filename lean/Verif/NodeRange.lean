import Verif.Props.Imports
import Verif.Props.ParserTotal
import Verif.Props.Completion

/-!
# Which nodes have a range

`Node::range` panics if it asks for the first or last element of an empty list.  `Void` are the three kinds of nodes the parser
builds with such a list: a `case` without statements, `static $a;` and `use ;` in a class.  `Fit n` says that these are the
only reasons why a node of the tree `n` has no range; below, one lemma per kind of node.
-/

namespace PhpLs.Parser

open PhpLs PhpLs.Suggester

set_option linter.unusedSimpArgs false

/-! ## Specification -/

/-- The end of the token can be computed. -/
def Ends (k : Token) : Prop := k.end ≠ none

/-- A node whose range needs an element of an empty list. -/
def Void : Node → Prop
  | .switchBranch _ [] => True
  | .staticVariablesStatement _ [] => True
  | .useTraitStatement _ [] => True
  | _ => False

/-- No void node in the tree. -/
def Clean (n : Node) : Prop := ∀ m, Below n m → ¬ Void m

/-- The ranges of all nodes of the tree are defined, with the exception of those that contain void nodes. -/
def Fit (n : Node) : Prop := Good Ends n → ∀ m, Below n m → Clean m → m.range ≠ none

def FitL (l : List Node) : Prop := ∀ n ∈ l, Fit n
def FitO (o : Option Node) : Prop := ∀ n, o = some n → Fit n
def FitOL (o : Option (List Node)) : Prop := ∀ l, o = some l → FitL l
def FitCs (l : List (Option Node)) : Prop := ∀ n, some n ∈ l → Fit n

/-- A name. -/
def Nm (n : Node) : Prop := ∃ t : TypeRef, n = .typeRef t ∧ t.kind ≠ []
def NmO (o : Option Node) : Prop := ∀ n, o = some n → Nm n
def NmL (l : List Node) : Prop := ∀ n ∈ l, Nm n

/-- A type. -/
def Ty (n : Node) : Prop := ∃ q ts, n = .dataType q ts ∧ NmL ts ∧ ts ≠ []

/-! ## The tokens of the children -/

variable {T : Token → Prop}

theorem good_filterMap {l : List (Option Node)} (h : Good T l) : ∀ c ∈ l.filterMap id, Good T c := by
  intro c hc
  rw [List.mem_filterMap] at hc
  obtain ⟨o, ho, e⟩ := hc
  cases (show o = some c from e)
  exact (good_some c).1 ((good_list l).1 h _ ho)

theorem good_getD {l : Option (List Node)} (h : Good T l) : Good T (l.getD []) := by
  cases l with
  | none => exact good_nil.2 trivial
  | some l => exact (good_some l).1 h

theorem good_children_aux (N : Nat) : ∀ n : Node, sizeOf n < N → Good T n → Good T n.children := by
  induction N with
  | zero => intro n h; omega
  | succ N ih =>
    intro n hn h
    cases n
    case dieStatement a b c d =>
      good_simp at h
      simp only [Node.children]
      cases c with
      | none => simp only [Node.childrenO]; exact good_nil.2 trivial
      | some e =>
        simp only [Node.childrenO]
        good_simp at h
        refine ih e ?_ h.2.2.1
        simp at hn; omega
    case switchBranch a b =>
      good_simp at h
      simp only [Node.children]
      rw [good_append]
      exact ⟨(good_list _).2 (good_filterMap h.1), h.2⟩
    all_goals
      simp only [Node.children]
      good_simp at h ⊢
      first
        | done
        | (simp only [h, and_self]; done)
        | (simp only [h, good_getD, and_self]; done)
        | (simp_all [good_getD]; done)

/-- The tokens of the children are tokens of the node. -/
theorem good_children {n c : Node} (h : Good T n) (hc : c ∈ n.children) : Good T c :=
  (good_list _).1 (good_children_aux _ n (Nat.lt_succ_self _) h) c hc

/-! ## Ranges -/

theorem end_of (h : Ends k) : ∃ e, k.end = some e := Option.ne_none_iff_exists'.1 h

theorem tokenRange_ne {k : Token} : k.range ≠ none ↔ Ends k := by
  unfold Ends
  rw [Ne, range_eq_none]

theorem rangeTT_ne {a b : Token} : rangeTT a b ≠ none ↔ Ends b := by
  unfold rangeTT Ends
  cases b.end <;> simp

theorem rangeTN_ne {a : Token} {b : Option NodeRange} : rangeTN a b ≠ none ↔ b ≠ none := by
  unfold rangeTN
  cases b <;> simp

theorem rangeNT_ne {a : Option NodeRange} {b : Token} : rangeNT a b ≠ none ↔ a ≠ none ∧ Ends b := by
  unfold rangeNT Ends
  cases a <;> cases b.end <;> simp

theorem rangeNN_ne {a b : Option NodeRange} : rangeNN a b ≠ none ↔ a ≠ none ∧ b ≠ none := by
  unfold rangeNN
  cases a <;> cases b <;> simp

theorem rangeFirst_ne {l : List Node} (h : l ≠ []) (hl : ∀ n ∈ l, n.range ≠ none) : Node.rangeFirst l ≠ none := by
  cases l with
  | nil => exact absurd rfl h
  | cons n l => exact hl n List.mem_cons_self

theorem rangeLast_ne : ∀ {l : List Node}, l ≠ [] → (∀ n ∈ l, n.range ≠ none) → Node.rangeLast l ≠ none
  | [], h, _ => absurd rfl h
  | [n], _, hl => by
    simp only [Node.rangeLast, List.isEmpty_nil, if_true]
    exact hl n List.mem_cons_self
  | n :: m :: l, _, hl => by
    have := rangeLast_ne (l := m :: l) (by simp) fun x hx => hl x (List.mem_cons_of_mem _ hx)
    rw [Node.rangeLast]
    cases h : Node.rangeLast (m :: l) with
    | none => exact absurd h this
    | some x => simp

theorem typeRef_ne {t : TypeRef} (h : t.kind ≠ []) (hg : ∀ k ∈ t.kind, Ends k) : t.range ≠ none := by
  unfold TypeRef.range
  obtain ⟨a, l, e⟩ := List.exists_cons_of_ne_nil h
  have h1 := hg a (by rw [e]; exact List.mem_cons_self)
  have h2 := hg _ (List.getLast_mem h)
  have h3 := tokenRange_ne.2 h1
  have h4 := tokenRange_ne.2 h2
  rw [List.getLast?_eq_some_getLast h, show t.kind.head? = some a by rw [e]; rfl]
  simp only [Option.bind_eq_bind, Option.bind_some]
  obtain ⟨x, hx⟩ := Option.ne_none_iff_exists'.1 h3
  obtain ⟨y, hy⟩ := Option.ne_none_iff_exists'.1 h4
  rw [hx, hy]
  simp

theorem unknown_ne : some NodeRange.unknown ≠ none := by simp

theorem bind_ne {o : Option α} {f : α → Option β} (h : o ≠ none) (hf : ∀ a, f a ≠ none) : (o >>= f) ≠ none := by
  cases o with
  | none => exact absurd rfl h
  | some a => exact hf a

theorem good_orTok {o : Option Token} {k : Token} (h1 : Good T o) (h2 : T k) : T (orTok o k) := by
  cases o with
  | none => exact h2
  | some x => exact (good_token x).1 ((good_some x).1 h1)

/-! ## Fit trees -/

theorem fit_intro' {n : Node} (h1 : ¬ Void n → Good Ends n → (∀ c ∈ n.children, c.range ≠ none) → n.range ≠ none)
    (h2 : Good Ends n → ∀ c ∈ n.children, Fit c) : Fit n := by
  intro hg m hb hc
  cases hb with
  | here =>
    refine h1 (hc n (.here n)) hg fun c hcc => ?_
    exact h2 hg c hcc (good_children hg hcc) c (.here c) fun m hm => hc m (.down hcc hm)
  | down hcc hb => exact h2 hg _ hcc (good_children hg hcc) m hb hc

theorem fit_intro {n : Node} (h1 : ¬ Void n → Good Ends n → (∀ c ∈ n.children, c.range ≠ none) → n.range ≠ none)
    (h2 : ∀ c ∈ n.children, Fit c) : Fit n := fit_intro' h1 fun _ => h2

theorem fit_nm {n : Node} (h : Nm n) : Fit n := by
  obtain ⟨t, rfl, ht⟩ := h
  refine fit_intro (fun _ hg _ => ?_) (fun c hc => by simp [Node.children] at hc)
  simp only [Node.range]
  exact typeRef_ne ht hg

theorem nm_ne {n : Node} (h : Nm n) (hg : Good Ends n) : n.range ≠ none := by
  obtain ⟨t, rfl, ht⟩ := h
  simp only [Node.range]
  exact typeRef_ne ht hg

theorem nmL_last {l : List Node} (h : NmL l) (hl : l ≠ []) (hg : Good Ends l) : Node.rangeLast l ≠ none :=
  rangeLast_ne hl fun n hn => nm_ne (h n hn) ((good_list l).1 hg n hn)

theorem nmL_first {l : List Node} (h : NmL l) (hl : l ≠ []) (hg : Good Ends l) : Node.rangeFirst l ≠ none :=
  rangeFirst_ne hl fun n hn => nm_ne (h n hn) ((good_list l).1 hg n hn)

theorem ty_ne {n : Node} (h : Ty n) (hg : Good Ends n) : n.range ≠ none := by
  obtain ⟨q, ts, rfl, h1, h2⟩ := h
  good_simp at hg
  cases q with
  | none => simp only [Node.range]; exact rangeNN_ne.2 ⟨nmL_first h1 h2 hg.2, nmL_last h1 h2 hg.2⟩
  | some q => simp only [Node.range]; exact rangeTN_ne.2 (nmL_last h1 h2 hg.2)

theorem nmO_some_iff {n : Node} : NmO (some n) ↔ Nm n := ⟨fun h => h n rfl, fun h _ e => by cases e; exact h⟩

theorem fitL_nil : FitL [] := fun _ h => by cases h
theorem fitL_snoc {l : List Node} {n : Node} (h : FitL l) (h' : Fit n) : FitL (l ++ [n]) := by
  intro m hm
  rcases List.mem_append.1 hm with hm | hm
  · exact h m hm
  · rw [List.mem_singleton.1 hm]; exact h'
theorem fitL_append {l m : List Node} (h : FitL l) (h' : FitL m) : FitL (l ++ m) := by
  intro x hx
  rcases List.mem_append.1 hx with hx | hx
  · exact h x hx
  · exact h' x hx
theorem fitL_one {n : Node} (h : Fit n) : FitL [n] := fitL_snoc fitL_nil h
theorem fitO_none : FitO none := fun _ h => by cases h
theorem fitO_some {n : Node} (h : Fit n) : FitO (some n) := fun _ e => by cases e; exact h
theorem fitOL_none : FitOL none := fun _ h => by cases h
theorem fitOL_some {l : List Node} (h : FitL l) : FitOL (some l) := fun _ e => by cases e; exact h
theorem nmO_none : NmO none := fun _ h => by cases h
theorem nmO_some {n : Node} (h : Nm n) : NmO (some n) := fun _ e => by cases e; exact h
theorem nmL_fit {l : List Node} (h : NmL l) : FitL l := fun n hn => fit_nm (h n hn)
theorem nmL_nil : NmL [] := fun _ h => by cases h
theorem nmL_snoc {l : List Node} {n : Node} (h : NmL l) (h' : Nm n) : NmL (l ++ [n]) := by
  intro m hm
  rcases List.mem_append.1 hm with hm | hm
  · exact h m hm
  · rw [List.mem_singleton.1 hm]; exact h'
theorem snoc_ne {l : List α} {a : α} : l ++ [a] ≠ [] := by simp

theorem fitO_mem {o : Option Node} (h : FitO o) : ∀ c ∈ o.toList, Fit c := by
  intro c hc
  cases o with
  | none => cases hc
  | some x => rw [List.mem_singleton.1 hc]; exact h x rfl

theorem fitOL_mem {o : Option (List Node)} (h : FitOL o) : ∀ c ∈ o.getD [], Fit c := by
  intro c hc
  cases o with
  | none => cases hc
  | some l => exact h l rfl c hc

theorem fitCs_mem {l : List (Option Node)} (h : FitCs l) : ∀ c ∈ l.filterMap id, Fit c := by
  intro c hc
  rw [List.mem_filterMap] at hc
  obtain ⟨o, ho, e⟩ := hc
  cases (show o = some c from e)
  exact h c ho

/-- Range of a constructor whose children have ranges. -/
macro "fit_range" : tactic => `(tactic| (
  intro hv hg hc
  good_simp at hg
  simp only [Node.children, List.mem_append, List.mem_cons, List.not_mem_nil, or_false, or_imp, forall_and, forall_eq,
    Option.toList, Option.getD, List.append_nil, List.nil_append] at hc
  first
    | (simp only [Node.range]; done)
    | (simp only [Node.range]; exact unknown_ne)
    | (simp only [Node.range, Node.rangeO]
       refine bind_ne (tokenRange_ne.2 ?_) fun _ => bind_ne (tokenRange_ne.2 ?_) fun _ => Option.some_ne_none _ <;>
         (simp_all [good_orTok, good_token]; done))
    | (simp only [Node.range, Node.rangeO]
       refine bind_ne ?_ fun _ => bind_ne ?_ fun _ => Option.some_ne_none _ <;>
         first
           | exact tokenRange_ne.2 (good_orTok (by simp_all) (by simp_all))
           | (simp_all [tokenRange_ne]; done)
           | exact nm_ne ‹_› (by simp_all))
    | (simp only [Node.range, Node.rangeO]
       refine bind_ne ?_ fun _ => ?_ <;>
         first
           | (simp_all [tokenRange_ne]; done)
           | exact nm_ne ‹_› (by simp_all))
    | (simp only [Node.range, rangeTT_ne, rangeTN_ne, rangeNT_ne, rangeNN_ne, tokenRange_ne]; simp_all [good_orTok, rangeFirst_ne, rangeLast_ne, good_token, nmL_last, ty_ne, nm_ne, nmO_some_iff, Void]; done)))

/-- Children of a constructor. -/
macro "fit_kids" : tactic => `(tactic| (
  simp only [Node.children, List.mem_append, List.mem_cons, List.not_mem_nil, or_false, or_imp, forall_and, forall_eq,
    false_implies, implies_true]
  repeat' apply And.intro
  all_goals first
    | done
    | assumption
    | exact fitO_mem ‹_›
    | exact fitOL_mem ‹_›
    | exact fitCs_mem ‹_›))

macro "fit_ctor" : tactic => `(tactic| (refine fit_intro ?_ ?_; (next => fit_range); (next => fit_kids)))

theorem fit_docCommentVar  : Fit (.docCommentVar k ts d) := by
  fit_ctor

theorem fit_unary (h0 : Fit e) : Fit (.unary e k) := by
  fit_ctor

theorem fit_postUnary (h0 : Fit e) : Fit (.postUnary e k) := by
  fit_ctor

theorem fit_const (h0 : Fit v) : Fit (.const k k2 v) := by
  fit_ctor

theorem fit_binary (h0 : Fit l) (h1 : Fit r) : Fit (.binary l k r) := by
  fit_ctor

theorem fit_ternary (h0 : Fit c) (h1 : FitO t) (h2 : Fit f) : Fit (.ternary c k t k2 f) := by
  fit_ctor

theorem fit_missing  : Fit (.missing k) := by
  fit_ctor

theorem fit_literal  : Fit (.literal k) := by
  fit_ctor

theorem fit_variable  : Fit (.variable k) := by
  fit_ctor

theorem fit_lexicalVariable  : Fit (.lexicalVariable o k) := by
  fit_ctor

theorem fit_aliasedVariable (h0 : Fit e) : Fit (.aliasedVariable k e) := by
  fit_ctor

theorem fit_dynamicVariable (h0 : Fit e) : Fit (.dynamicVariable k k2 e k3) := by
  fit_ctor

theorem fit_staticVariable (h0 : FitO v) : Fit (.staticVariable k o v) := by
  refine fit_intro ?_ ?_
  · cases v <;> fit_range
  · fit_kids

theorem fit_grouping (h0 : Fit e) : Fit (.grouping e) := by
  fit_ctor

theorem fit_array (h0 : FitL l) : Fit (.array k l k2) := by
  fit_ctor

theorem fit_oldArray (h0 : FitL l) : Fit (.oldArray k k2 l k3) := by
  fit_ctor

theorem fit_arrayElement (h0 : FitO o) (h1 : Fit v) : Fit (.arrayElement o k v) := by
  refine fit_intro ?_ ?_
  · cases o <;> fit_range
  · fit_kids

theorem fit_list (h0 : FitL l) : Fit (.list k k2 l k3) := by
  fit_ctor

theorem fit_call (h0 : Fit e) (h1 : FitL l) : Fit (.call e k l k2) := by
  fit_ctor

theorem fit_isset (h0 : FitL l) : Fit (.isset k k2 l k3) := by
  fit_ctor

theorem fit_emptyExpr (h0 : FitL l) : Fit (.emptyExpr k k2 l k3) := by
  fit_ctor

theorem fit_exitExpr (h0 : FitOL l) : Fit (.exitExpr k o l o2) := by
  fit_ctor

theorem fit_newExpr (h0 : Fit e) : Fit (.newExpr k e) := by
  fit_ctor

theorem fit_member (h0 : Fit a) (h1 : Fit b) : Fit (.member a k o b o2) := by
  fit_ctor

theorem fit_staticMember (h0 : Fit a) (h1 : Fit b) : Fit (.staticMember a k o b o2) := by
  refine fit_intro ?_ ?_
  · cases o2 <;> fit_range
  · fit_kids

theorem fit_field (h0 : Fit a) (h1 : FitO i) : Fit (.field a k i k2) := by
  fit_ctor

theorem fit_matchExpr (h0 : Fit c) (h1 : FitL l) : Fit (.matchExpr k k2 k3 c k4 l k5) := by
  fit_ctor

theorem fit_matchArm (h0 : FitOL l) (h1 : l ≠ some []) (h2 : Fit e) : Fit (.matchArm l k e) := by
  refine fit_intro ?_ ?_
  · cases l <;> fit_range
  · fit_kids

theorem fit_closure (h0 : FitOL l) (h1 : FitOL u) (h2 : FitO t) (h3 : Fit b) : Fit (.closure o o2 k k2 l k3 u t b ats) := by
  fit_ctor

theorem fit_arrowFunction (h0 : FitOL l) (h1 : Fit b) : Fit (.arrowFunction o o2 k k2 l k3 k4 t b ats) := by
  fit_ctor

theorem fit_namedParameter (h0 : Fit e) : Fit (.namedParameter k k2 e) := by
  fit_ctor

theorem fit_functionArgument (h0 : FitO t) (h1 : FitO d) : Fit (.functionArgument t k o d o2 o3 dc ats) := by
  refine fit_intro ?_ ?_
  · cases o3 <;> cases t <;> cases d <;> fit_range
  · fit_kids

theorem fit_dataType (h0 : FitL l) (h1 : l ≠ []) : Fit (.dataType o l) := by
  refine fit_intro ?_ ?_
  · cases o <;> fit_range
  · fit_kids

theorem fit_returnType (h0 : Ty d) : Fit (.returnType k d) := by
  fit_ctor

theorem fit_anonClass (h0 : FitOL l) (h1 : FitO e) (h2 : FitOL i) (h3 : Fit b) : Fit (.anonClass k l e i b ats) := by
  fit_ctor

theorem fit_yieldExpr (h0 : FitO o) : Fit (.yieldExpr k o) := by
  refine fit_intro ?_ ?_
  · cases o <;> fit_range
  · fit_kids

theorem fit_yieldFrom (h0 : Fit e) : Fit (.yieldFrom k e) := by
  fit_ctor

theorem fit_fileInclude (h0 : Fit e) : Fit (.fileInclude k e) := by
  fit_ctor

theorem fit_useDeclaration (h0 : Fit d) : Fit (.useDeclaration o d o2 o3) := by
  refine fit_intro ?_ ?_
  · cases o <;> cases o3 <;> fit_range
  · fit_kids

theorem fit_useConst (h0 : Nm d) : Fit (.useConst o d o2 o3) := by
  refine fit_intro ?_ ?_
  · cases o <;> cases o3 <;> fit_range
  · fit_kids

theorem fit_useFunction (h0 : Nm d) : Fit (.useFunction o d o2 o3) := by
  refine fit_intro ?_ ?_
  · cases o <;> cases o3 <;> fit_range
  · fit_kids

theorem fit_groupedUse  : Fit (.groupedUse k p k2 l k3) := by
  fit_ctor

theorem fit_expressionStatement (h0 : Fit e) : Fit (.expressionStatement e) := by
  fit_ctor

theorem fit_echoStatement (h0 : FitL l) (h1 : l ≠ []) : Fit (.echoStatement k l) := by
  fit_ctor

theorem fit_constStatement (h0 : FitL l) (h1 : l ≠ []) : Fit (.constStatement k l) := by
  fit_ctor

theorem fit_printStatement (h0 : FitL l) (h1 : l ≠ []) : Fit (.printStatement k l) := by
  fit_ctor

theorem fit_gotoStatement  : Fit (.gotoStatement k k2) := by
  fit_ctor

theorem fit_labelStatement  : Fit (.labelStatement k k2) := by
  fit_ctor

theorem fit_throwStatement (h0 : Fit e) : Fit (.throwStatement k e) := by
  fit_ctor

theorem fit_declareStatement  : Fit (.declareStatement k k2 k3 k4 k5 k6) := by
  fit_ctor

theorem fit_defineStatement  : Fit (.defineStatement a b k k2 k3 o) := by
  fit_ctor

theorem fit_unsetStatement (h0 : FitL l) : Fit (.unsetStatement k k2 l k3) := by
  fit_ctor

theorem fit_returnStatement (h0 : FitO o) : Fit (.returnStatement k o) := by
  refine fit_intro ?_ ?_
  · cases o <;> fit_range
  · fit_kids

theorem fit_namespaceStatement (h0 : Fit n) : Fit (.namespaceStatement k n) := by
  fit_ctor

theorem fit_namespaceBlock (h0 : FitO o) (h1 : Fit b) : Fit (.namespaceBlock k o b) := by
  fit_ctor

theorem fit_useStatement (h0 : FitL l) (h1 : l ≠ []) : Fit (.useStatement k l) := by
  fit_ctor

theorem fit_useFunctionStatement (h0 : FitL l) (h1 : l ≠ []) : Fit (.useFunctionStatement k l) := by
  fit_ctor

theorem fit_useConstStatement (h0 : FitL l) (h1 : l ≠ []) : Fit (.useConstStatement k l) := by
  fit_ctor

theorem fit_useTraitStatement (h0 : FitL l) : Fit (.useTraitStatement k l) := by
  refine fit_intro ?_ ?_
  · cases l <;> fit_range
  · fit_kids

theorem fit_useTrait (h0 : Nm n) : Fit (.useTrait n) := by
  fit_ctor

theorem fit_useTraitAlterationBlock  : Fit (.useTraitAlterationBlock l k m k2) := by
  fit_ctor

theorem fit_useTraitInsteadOf (h0 : NmO o) (h1 : Nm m) (h2 : NmL l) (h3 : l ≠ []) : Fit (.useTraitInsteadOf o p m k l) := by
  refine fit_intro ?_ ?_
  · cases o <;> fit_range
  · fit_kids

theorem fit_useTraitAs (h0 : NmO o) (h1 : Nm m) : Fit (.useTraitAs o p m k o2 o3) := by
  refine fit_intro ?_ ?_
  · cases o <;> cases o2 <;> cases o3 <;> fit_range
  · fit_kids

theorem fit_classStatement (h0 : FitOL i) (h1 : FitO e) (h2 : Fit b) (h3 : FitO d) : Fit (.classStatement k k2 o o2 i e b d ats) := by
  refine fit_intro ?_ ?_
  · cases d <;> fit_range
  · fit_kids

theorem fit_traitStatement (h0 : Fit b) : Fit (.traitStatement k k2 b d) := by
  fit_ctor

theorem fit_interface (h0 : FitOL e) (h1 : Fit b) : Fit (.interface k k2 e b d) := by
  fit_ctor

theorem fit_classConstantDefinitionStatement (h0 : FitL l) (h1 : l ≠ []) (h2 : FitL ats) : Fit (.classConstantDefinitionStatement k l d o ats) := by
  fit_ctor

theorem fit_classConstant (h0 : Fit v) : Fit (.classConstant o k v) := by
  fit_ctor

theorem fit_property (h0 : FitO v) : Fit (.property k v) := by
  refine fit_intro ?_ ?_
  · cases v <;> fit_range
  · fit_kids

theorem fit_propertyDefinitionStatement (h0 : FitL l) (h1 : l ≠ []) (h2 : FitO t) (h3 : FitL ats) : Fit (.propertyDefinitionStatement l d o t o2 o3 ats) := by
  refine fit_intro ?_ ?_
  · cases t <;> fit_range
  · fit_kids

theorem fit_methodDefinitionStatement (h0 : Fit f) (h1 : FitL ats) : Fit (.methodDefinitionStatement k o o2 k2 o3 o4 f o5 d ats) := by
  fit_ctor

theorem fit_functionDefinitionStatement (h0 : FitOL l) (h1 : FitO t) (h2 : FitO b) : Fit (.functionDefinitionStatement k l k2 t b d) := by
  refine fit_intro ?_ ?_
  · cases b <;> cases t <;> fit_range
  · fit_kids

theorem fit_namedFunctionDefinitionStatement (h0 : Fit f) (h1 : FitL ats) : Fit (.namedFunctionDefinitionStatement k o k2 f ats) := by
  fit_ctor

theorem fit_whileStatement (h0 : Fit c) (h1 : Fit b) : Fit (.whileStatement k k2 c k3 b) := by
  fit_ctor

theorem fit_doWhileStatement (h0 : Fit c) (h1 : Fit b) : Fit (.doWhileStatement k k2 k3 k4 c b) := by
  fit_ctor

theorem fit_forStatement (h0 : FitL i) (h1 : FitL c) (h2 : FitL s) (h3 : Fit b) : Fit (.forStatement k i c s b) := by
  fit_ctor

theorem fit_forEachStatement (h0 : Fit c) (h1 : Fit kv) (h2 : Fit b) : Fit (.forEachStatement k k2 c k3 kv k4 b) := by
  fit_ctor

theorem fit_block (h0 : FitL l) : Fit (.block k l k2) := by
  fit_ctor

theorem fit_alternativeBlock (h0 : FitL l) : Fit (.alternativeBlock k l k2) := by
  fit_ctor

theorem fit_ifBranch (h0 : Fit c) (h1 : Fit b) : Fit (.ifBranch k k2 c k3 b) := by
  fit_ctor

theorem fit_elseBranch (h0 : Fit b) : Fit (.elseBranch k b) := by
  fit_ctor

theorem fit_ifStatement (h0 : Fit i) (h1 : FitL l) (h2 : FitO o) : Fit (.ifStatement i l o) := by
  refine fit_intro ?_ ?_
  · cases o <;> cases l <;> fit_range
  · fit_kids

theorem fit_switchBranch (h0 : FitCs cs) (h1 : FitL l) : Fit (.switchBranch cs l) := by
  refine fit_intro ?_ ?_
  · cases l <;> fit_range
  · fit_kids

theorem fit_switchCase (h0 : Fit e) (h1 : Fit b) : Fit (.switchCase k k2 e k3 b) := by
  fit_ctor

theorem fit_switchBody (h0 : FitL l) : Fit (.switchBody k l k2) := by
  fit_ctor

theorem fit_tokenStatement (h0 : FitO o) : Fit (.tokenStatement k o) := by
  refine fit_intro ?_ ?_
  · cases o <;> fit_range
  · fit_kids

theorem fit_catchBlock (h0 : Fit b) : Fit (.catchBlock k k2 l k3 k4 b) := by
  fit_ctor

theorem fit_finallyBlock (h0 : Fit b) : Fit (.finallyBlock k b) := by
  fit_ctor

theorem fit_tryCatch (h0 : Fit t) (h1 : FitL l) (h2 : FitO o) : Fit (.tryCatch k t l o) := by
  refine fit_intro ?_ ?_
  · cases o <;> cases l <;> fit_range
  · fit_kids

theorem fit_staticVariablesStatement (h0 : FitL l) : Fit (.staticVariablesStatement k l) := by
  refine fit_intro ?_ ?_
  · cases l <;> fit_range
  · fit_kids

theorem fit_globalVariablesStatement (h0 : FitL l) (h1 : l ≠ []) : Fit (.globalVariablesStatement k l) := by
  fit_ctor

theorem fit_attr (h0 : FitL l) : Fit (.attr k l k2) := by
  fit_ctor

theorem fit_inlineHtml  : Fit (.inlineHtml k o) := by
  fit_ctor
end PhpLs.Parser
