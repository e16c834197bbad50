import Verif.Props.GlobalTable
import Verif.ArenaLemmas
import Verif.Runs

/-!
# C66: the symbols of a file are its declarations

Which symbols a tree declares is stated here as a relation over the tree (`One`, `Many`) that knows neither the visitor nor the
arena.  Then the walk of the visitor adds exactly these symbols, nested in this way and in this order.
-/

namespace PhpLs

/-! ## What is declared -/

namespace Declared

/-- What is said about a symbol.  Not looked at: its imports, its trait rules and its parameters (C53, C31, C63), and the range
of a namespace. -/
structure Fact where
  kind : SymbolKind
  name : Text
  place : Option LspRange
  namePlace : LspRange
  deprecated : Option Bool := none
  «namespace» : Option Text := none
  parents : Option (List TypeRef) := none
  types : List TypeRef := []
  isStatic : Bool := false
  visibility : Visibility := .none
  isAttribute : Bool := false

/-- What a symbol says. -/
def factOf (v : Symbol) : Fact where
  kind := v.kind
  name := v.name
  place := if v.kind = .namespace then none else some v.range
  namePlace := v.selectionRange
  deprecated := v.deprecated
  «namespace» := v.namespace
  parents := v.inheritsFrom.map fun l => l.map (·.typeRef)
  types := v.dataTypes.map (·.typeRef)
  isStatic := v.isStatic
  visibility := v.visibility
  isAttribute := v.isAttribute

/-- Declarations in order, with those inside of them. -/
inductive Outline where
  | nil
  | cons (fact : Fact) (inside rest : Outline)

/-- One outline behind the other. -/
def Outline.append : Outline → Outline → Outline
  | .nil, o => o
  | .cons f i r, o => .cons f i (r.append o)

/-- Declarations with nothing inside. -/
def Outline.flat : List Fact → Outline
  | [] => .nil
  | f :: r => .cons f .nil (.flat r)

/-- The place of a range of the parser. -/
def spot (r : NodeRange) : LspRange := ⟨⟨r.startLine, r.startCol⟩, ⟨r.endLine, r.endCol⟩⟩

/-- The types a list of nodes names. -/
def names : List Node → List TypeRef
  | [] => []
  | .typeRef t :: r => t :: names r
  | .docCommentReturn (some ts) _ :: r => ts ++ names r
  | _ :: r => names r

/-- The types a type declaration or a directive of a comment gives. -/
def typesOf : Node → List TypeRef
  | .returnType _ d => typesOf d
  | .dataType _ ts => names ts
  | .docCommentVar _ (some ts) _ => ts
  | .docCommentReturn (some ts) _ => ts
  | .docCommentParam _ (some ts) _ => ts
  | _ => []

/-- The types an optional declaration gives. -/
def typesOf? : Option Node → List TypeRef
  | none => []
  | some n => typesOf n

/-- The types of all the `@var` directives of a comment. -/
def varTypes : Option Node → List TypeRef
  | some (.docComment _ _ _ _ _ vars _) => (vars.map typesOf).flatten
  | _ => []

/-- The types of all the `@return` directives of a comment. -/
def returnTypes : Option Node → List TypeRef
  | some (.docComment _ returns _ _ _ _ _) => (returns.map typesOf).flatten
  | _ => []

/-- A comment says that something is deprecated. -/
def isDeprecated : Option Node → Option Bool
  | some (.docComment _ _ _ true _ _ _) => some true
  | _ => none

/-- The visibility a modifier gives. -/
def visible : Option Token → Visibility
  | none => .none
  | some k => if k.t = .kwPublic then .public else if k.t = .kwProtected then .protected else if k.t = .kwPrivate then .private else .none

/-- One of the attributes of a class is `Attribute`. -/
def HasAttribute (attributes : List Node) : Prop :=
  ∃ a b es c, a = .attr b es c ∧ a ∈ attributes ∧ ∃ t k, Node.typeRef t ∈ es ∧ t.rootToken = some k ∧ k.display = some c!"Attribute"

/-- The place of a declaration with its comment. -/
inductive Around (node : Node) : Option Node → LspRange → Prop
  | bare {r} : node.range = some r → Around node none (spot r)
  | commented {doc d r} : doc.range = some d → node.range = some r →
      Around node (some doc) ⟨⟨d.startLine, d.startCol⟩, ⟨r.endLine, r.endCol⟩⟩

/-- Declarations with something inside: what they say, and what is always inside of them. -/
inductive Opens (ns : Option Text) : Node → Fact → Outline → Prop
  | «namespace» {k t n r} : t.toFqdn = some n → t.range = some r →
      Opens ns (.namespaceStatement k (.typeRef t)) { kind := .namespace, name := n, place := none, namePlace := spot r } .nil
  | «class» {k name ab fin impl ext body doc atts n r nr isAtt} : name.display = some n →
      (Node.classStatement k name ab fin impl ext body doc atts).range = some r → name.range = some nr →
      (isAtt = true ↔ HasAttribute atts) →
      Opens ns (.classStatement k name ab fin impl ext body doc atts)
        { kind := .cls, name := n, place := some (spot r), namePlace := spot nr, deprecated := isDeprecated doc, «namespace» := ns,
          parents := ext.map fun e => names [e], types := .one [name] :: names (impl.getD []), isAttribute := isAtt }
        (.flat [{ kind := .magicConst, name := c!"class", place := some (spot nr), namePlace := spot nr, isStatic := true }])
  | trait {k name body doc n r nr} : name.display = some n → (Node.traitStatement k name body doc).range = some r →
      name.range = some nr →
      Opens ns (.traitStatement k name body doc)
        { kind := .trait, name := n, place := some (spot r), namePlace := spot nr, deprecated := isDeprecated doc, «namespace» := ns }
        .nil
  | interface {k name ext body doc n r nr} : name.display = some n → (Node.interface k name ext body doc).range = some r →
      name.range = some nr →
      Opens ns (.interface k name ext body doc)
        { kind := .interface, name := n, place := some (spot r), namePlace := spot nr, deprecated := isDeprecated doc, «namespace» := ns,
          parents := ext.map names } .nil
  | method {k fin ref name vis ab function st doc atts a b c ret d e n r nr} : name.display = some n →
      function = .functionDefinitionStatement a b c ret d e →
      Around (.methodDefinitionStatement k fin ref name vis ab function st doc atts) doc r → name.range = some nr →
      Opens ns (.methodDefinitionStatement k fin ref name vis ab function st doc atts)
        { kind := .method, name := n, place := some r, namePlace := spot nr, deprecated := isDeprecated doc,
          types := typesOf? ret ++ returnTypes doc, isStatic := st.isSome, visibility := visible vis } .nil
  | function {k ref name function atts a b c ret d doc n r nr} : name.display = some n →
      function = .functionDefinitionStatement a b c ret d doc →
      Around (.namedFunctionDefinitionStatement k ref name function atts) doc r → name.range = some nr →
      Opens ns (.namedFunctionDefinitionStatement k ref name function atts)
        { kind := .function, name := n, place := some r, namePlace := spot nr, types := typesOf? ret ++ returnTypes doc } .nil
  | arrow {st ref k op args cp ar ret body atts r kr} :
      (Node.arrowFunction st ref k op args cp ar ret body atts).range = some r → k.range = some kr →
      Opens ns (.arrowFunction st ref k op args cp ar ret body atts)
        { kind := .function, name := afName kr, place := some (spot r), namePlace := spot kr } .nil

/-- The constants of one declaration. -/
inductive Consts (whole : Node) (doc : Option Node) : List Node → List Fact → Prop
  | nil : Consts whole doc [] []
  | const {vis name value rest n r fs} : name.display = some n → whole.range = some r → Consts whole doc rest fs →
      Consts whole doc (.classConstant vis name value :: rest)
        ({ kind := .constant, name := n, place := some (spot r), namePlace := spot r, deprecated := isDeprecated doc,
           types := varTypes doc, visibility := visible vis } :: fs)
  | other {node rest fs} : (∀ a b c, node ≠ .classConstant a b c) → Consts whole doc rest fs → Consts whole doc (node :: rest) fs

/-- The properties of one declaration. -/
inductive Properties (fact : Text → Fact) : List Node → List Fact → Prop
  | nil : Properties fact [] []
  | property {name value rest n fs} : name.display = some n → Properties fact rest fs →
      Properties fact (.property name value :: rest) (fact n :: fs)
  | other {node rest fs} : (∀ a b, node ≠ .property a b) → Properties fact rest fs → Properties fact (node :: rest) fs

/-- Imports, and the use of traits. -/
def IsUse : Node → Bool
  | .groupedUse .. | .useDeclaration .. | .useFunction .. | .useConst .. | .useTraitInsteadOf .. | .useTraitAs ..
  | .useTraitAlterationBlock .. | .useTrait .. => true
  | _ => false

/-- Declarations with nothing inside. -/
inductive Lists : Node → List Fact → Prop
  | use {node} : IsUse node = true → Lists node []
  | const {name eq value n r} : name.display = some n → (Node.const name eq value).range = some r →
      Lists (.const name eq value) [{ kind := .constant, name := n, place := some (spot r), namePlace := spot r }]
  | consts {k cs doc vis atts fs} : Consts (.classConstantDefinitionStatement k cs doc vis atts) doc cs fs →
      Lists (.classConstantDefinitionStatement k cs doc vis atts) fs
  | documented {name types text n r} : name.label = some n → (Node.docCommentProperty name types text).range = some r →
      Lists (.docCommentProperty name types text)
        [{ kind := .property, name := n, place := some (spot r), namePlace := spot r, types := types.getD [], visibility := .private }]
  | properties {ps doc vis type st ab atts r fs} :
      (Node.propertyDefinitionStatement ps doc vis type st ab atts).range = some r →
      Properties (fun n =>
        { kind := .property, name := n, place := some (spot r), namePlace := spot r, deprecated := isDeprecated doc,
          types := typesOf? type ++ varTypes doc, visibility := visible vis }) ps fs →
      Lists (.propertyDefinitionStatement ps doc vis type st ab atts) fs
  | argument {type name dflt value spread ref doc atts n r nr} : name.display = some n →
      (Node.functionArgument type name dflt value spread ref doc atts).range = some r → name.range = some nr →
      Lists (.functionArgument type name dflt value spread ref doc atts)
        [{ kind := .functionParameter, name := n, place := some (spot r), namePlace := spot nr, deprecated := isDeprecated doc,
           types := typesOf? type ++ typesOf? doc }]
  | define {t value op cp k ci n r nr} : t.label = some n → (Node.defineStatement (.literal t) value op cp k ci).range = some r →
      t.range = some nr →
      Lists (.defineStatement (.literal t) value op cp k ci)
        [{ kind := .constant, name := n, place := some (spot r), namePlace := spot nr }]
  | computed {name value op cp k ci} : (∀ t, name ≠ .literal t) → Lists (.defineStatement name value op cp k ci) []
  | noMethod {k fin ref name vis ab function st doc atts} : (∀ a b c d e f, function ≠ .functionDefinitionStatement a b c d e f) →
      Lists (.methodDefinitionStatement k fin ref name vis ab function st doc atts) []
  | noFunction {k ref name function atts} : (∀ a b c d e f, function ≠ .functionDefinitionStatement a b c d e f) →
      Lists (.namedFunctionDefinitionStatement k ref name function atts) []

/-- Nodes that declare something themselves or that are not looked into. -/
def Declaring : Node → Bool
  | .namespaceStatement .. | .const .. | .classStatement .. | .traitStatement .. | .interface ..
  | .classConstantDefinitionStatement .. | .docCommentProperty .. | .propertyDefinitionStatement ..
  | .methodDefinitionStatement .. | .arrowFunction .. | .namedFunctionDefinitionStatement .. | .functionArgument ..
  | .defineStatement .. => true
  | node => IsUse node

/-- The namespace inside of a node. -/
inductive Into (ns : Option Text) : Node → Option Text → Prop
  | statement {k t n} : t.toFqdn = some n → Into ns (.namespaceStatement k (.typeRef t)) (some n)
  | block {k t b n} : t.toFqdn = some n → Into ns (.namespaceBlock k (some (.typeRef t)) b) (some n)
  | global {k b} : Into ns (.namespaceBlock k none b) none
  | other {node} : (∀ k t, node ≠ .namespaceStatement k (.typeRef t)) → (∀ k t b, node ≠ .namespaceBlock k (some (.typeRef t)) b) →
      (∀ k b, node ≠ .namespaceBlock k none b) → Into ns node ns

/-- The namespace behind a node, if it is `ns` at its end. -/
inductive OutOf (ns : Option Text) : Node → Option Text → Prop
  | block {k t b} : OutOf ns (.namespaceBlock k t b) none
  | other {node} : (∀ k t b, node ≠ .namespaceBlock k t b) → OutOf ns node ns

mutual

/-- What one node declares: the namespace before it, the node, the namespace behind it, and the declarations. -/
inductive One : Option Text → Node → Option Text → Outline → Prop
  | opens {ns node ns1 ns2 ns3 fact always inside} : Into ns node ns1 → Opens ns1 node fact always →
      Many ns1 node.children ns2 inside → OutOf ns2 node ns3 → One ns node ns3 (.cons fact (always.append inside) .nil)
  | lists {ns node ns1 ns2 facts} : Into ns node ns1 → Lists node facts → OutOf ns1 node ns2 → One ns node ns2 (.flat facts)
  | passes {ns node ns1 ns2 ns3 inside} : Into ns node ns1 → Declaring node = false → Many ns1 node.children ns2 inside →
      OutOf ns2 node ns3 → One ns node ns3 inside

/-- What nodes declare, one after the other. -/
inductive Many : Option Text → List Node → Option Text → Outline → Prop
  | nil {ns} : Many ns [] ns .nil
  | cons {ns node ns1 rest ns2 o o'} : One ns node ns1 o → Many ns1 rest ns2 o' → Many ns (node :: rest) ns2 (o.append o')

end

/-! ## Forests -/

end Declared

namespace Forest

variable {α β : Type}

/-- The forest with other payloads. -/
def mapVal (f : α → β) : Forest α → Forest β
  | nil => nil
  | cons i v k r => cons i (f v) (k.mapVal f) (r.mapVal f)

theorem mapVal_append (f : α → β) (x y : Forest α) : (x.append y).mapVal f = (x.mapVal f).append (y.mapVal f) := by
  induction x with
  | nil => rfl
  | cons i v k r _ ih => simp [append, mapVal, ih]

theorem mapVal_idxs (f : α → β) (x : Forest α) : (x.mapVal f).idxs = x.idxs := by
  induction x with
  | nil => rfl
  | cons i v k r ihk ihr => simp only [mapVal, idxs_cons, ihk, ihr]

theorem append_none (x : Forest α) : x.append .nil = x := by
  induction x with
  | nil => rfl
  | cons i v k r _ ih => simp [append, ih]

theorem append_append (x y z : Forest α) : (x.append y).append z = x.append (y.append z) := by
  induction x with
  | nil => rfl
  | cons i v k r _ ih => simp [append, ih]

/-- `g` behind the children of the node in slot `n`. -/
def graft (x : Forest α) (n : Nat) (g : Forest α) : Forest α := x.update n fun w k => (w, k.append g)

theorem graft_cons (i : NodeId) (v : α) (k r : Forest α) (n : Nat) (g : Forest α) :
    (cons i v k r).graft n g = if i.idx = n then cons i v (k.append g) r else cons i v (k.graft n g) (r.graft n g) := rfl

theorem graft_none (n : Nat) (g : Forest α) : (nil : Forest α).graft n g = nil := rfl

theorem graft_out {n : Nat} {g x : Forest α} (h : n ∉ x.idxs) : x.graft n g = x := update_notMem h _

theorem graft_nil (n : Nat) (x : Forest α) : x.graft n .nil = x := by
  induction x with
  | nil => rfl
  | cons i v k r ihk ihr =>
    rw [graft_cons, append_none, ihk, ihr, ite_self]

theorem graft_graft (n : Nat) (g g' : Forest α) (x : Forest α) : (x.graft n g).graft n g' = x.graft n (g.append g') := by
  induction x with
  | nil => rfl
  | cons i v k r ihk ihr =>
    rw [graft_cons, graft_cons]
    by_cases h : i.idx = n
    · rw [if_pos h, if_pos h, graft_cons, if_pos h, append_append]
    · rw [if_neg h, if_neg h, graft_cons, if_neg h, ihk, ihr]

/-- Behind the children of a node that stands at the end. -/
theorem graft_put {c : NodeId} {v : α} {e g : Forest α} {k : Forest α} (h : c.idx ∉ k.idxs) :
    (k.append (cons c v e .nil)).graft c.idx g = k.append (cons c v (e.append g) .nil) := by
  induction k with
  | nil => rw [append, append, graft_cons, if_pos rfl]
  | cons i w k r _ ih =>
    rw [idxs_cons] at h
    simp only [List.mem_cons, List.mem_append, not_or] at h
    rw [append, append, graft_cons, if_neg (fun e => h.1 e.symm), graft_out h.2.1, ih h.2.2]

/-- Behind the children of a node that has just been put there. -/
theorem graft_in {n : Nat} {c : NodeId} {v : α} {e g : Forest α} {x : Forest α} (hc : c.idx ∉ x.idxs) :
    (x.graft n (cons c v e .nil)).graft c.idx g = x.graft n (cons c v (e.append g) .nil) := by
  induction x with
  | nil => rfl
  | cons i w k r ihk ihr =>
    rw [idxs_cons] at hc
    simp only [List.mem_cons, List.mem_append, not_or] at hc
    rw [graft_cons, graft_cons]
    by_cases h : i.idx = n
    · rw [if_pos h, if_pos h, graft_cons, if_neg (fun e => hc.1 e.symm), graft_put hc.2.1, graft_out hc.2.2]
    · rw [if_neg h, if_neg h, graft_cons, if_neg (fun e => hc.1 e.symm), ihk hc.2.1, ihr hc.2.2]

theorem mapVal_graft (f : α → β) (n : Nat) (g : Forest α) (x : Forest α) : (x.graft n g).mapVal f = (x.mapVal f).graft n (g.mapVal f) := by
  induction x with
  | nil => rfl
  | cons i v k r ihk ihr =>
    rw [graft_cons, mapVal, graft_cons]
    by_cases h : i.idx = n
    · rw [if_pos h, if_pos h, mapVal, mapVal_append]
    · rw [if_neg h, if_neg h, mapVal, ihk, ihr]

theorem mapVal_modify (f : α → β) (n : Nat) (u : α → α) (hu : ∀ v, f (u v) = f v) (x : Forest α) :
    (x.update n fun v k => (u v, k)).mapVal f = x.mapVal f := by
  induction x with
  | nil => rfl
  | cons i v k r ihk ihr =>
    unfold update
    split
    · simp only [mapVal, hu]
    · simp only [mapVal, ihk, ihr]

theorem replace_absent {n : Nat} {g : Forest α → Forest α} {x : Forest α} (h : n ∉ x.idxs) : x.replace n g = x := by
  induction x with
  | nil => rfl
  | cons i v k r ihk ihr =>
    rw [idxs_cons] at h
    simp only [List.mem_cons, List.mem_append, not_or] at h
    rw [replace, if_neg (fun e => h.1 e.symm), ihk h.2.1, ihr h.2.2]

theorem replace_front {n : Nat} {g : Forest α → Forest α} {x y : Forest α} (h : n ∉ y.idxs) :
    (x.append y).replace n g = (x.replace n g).append y := by
  induction x with
  | nil => exact replace_absent h
  | cons i v k r _ ih =>
    rw [append, replace, replace]
    by_cases e : i.idx = n
    · rw [if_pos e, if_pos e, append_append]
    · rw [if_neg e, if_neg e, ih, append]

theorem mapVal_parts {f : α → β} {x : Forest α} {y z : Forest β} (h : x.mapVal f = y.append z) :
    ∃ y' z' : Forest α, x = y'.append z' ∧ y'.mapVal f = y ∧ z'.mapVal f = z := by
  induction y generalizing x with
  | nil => exact ⟨.nil, x, rfl, rfl, h⟩
  | cons i v k r _ ih =>
    cases x with
    | nil => cases h
    | cons i' v' k' r' =>
      injection h with h1 h2 h3 h4
      obtain ⟨y', z', rfl, e1, e2⟩ := ih h4
      exact ⟨.cons i' v' k' y', z', rfl, by rw [mapVal, h1, h2, h3, e1], e2⟩

theorem node?_behind {c : NodeId} {v : α} {k x : Forest α} (h : c.idx ∉ x.idxs) :
    (x.append (cons c v k .nil)).node? c.idx = some (c, v, k) := by
  induction x with
  | nil => rw [append, node?, if_pos rfl]
  | cons i w k' r _ ih =>
    rw [idxs_cons] at h
    simp only [List.mem_cons, List.mem_append, not_or] at h
    rw [append, node?, if_neg (fun e => h.1 e.symm), node?_none.2 h.2.1]
    exact ih h.2.2

theorem idxs_behind (x y : Forest α) : (x.append y).idxs = x.idxs ++ y.idxs := by
  induction x with
  | nil => rfl
  | cons i v k r _ ih => rw [append, idxs_cons, idxs_cons, ih, List.cons_append, List.append_assoc]

theorem mapVal_without (f : α → β) (n : Nat) (x : Forest α) :
    (x.replace n fun _ => .nil).mapVal f = (x.mapVal f).replace n fun _ => .nil := by
  induction x with
  | nil => rfl
  | cons i v k r ihk ihr =>
    rw [replace, mapVal, replace]
    by_cases e : i.idx = n
    · rw [if_pos e, if_pos e, append, append]
    · rw [if_neg e, if_neg e, mapVal, ihk, ihr]

end Forest

namespace Declared

open Out

/-- The outline of the symbols in a forest. -/
def outlineOf : Forest Symbol → Outline
  | .nil => .nil
  | .cons _ v k r => .cons (factOf v) (outlineOf k) (outlineOf r)

/-- An outline without the ids. -/
def bare : Forest Fact → Outline
  | .nil => .nil
  | .cons _ f k r => .cons f (bare k) (bare r)

theorem bare_mapVal (x : Forest Symbol) : bare (x.mapVal factOf) = outlineOf x := by
  induction x with
  | nil => rfl
  | cons i v k r ihk ihr => rw [Forest.mapVal, bare, outlineOf, ihk, ihr]

theorem bare_append (x y : Forest Fact) : bare (x.append y) = (bare x).append (bare y) := by
  induction x with
  | nil => rfl
  | cons i v k r _ ih => rw [Forest.append, bare, bare, Outline.append, ih]

/-- `a'` is `a` with `g` behind the children of `p`. -/
structure Grafted (p : NodeId) (a a' : Arena Symbol) (g : Forest Fact) : Prop where
  ok : a'.Ok
  eq : a'.forest.mapVal factOf = (a.forest.mapVal factOf).graft p.idx g

namespace Grafted

theorem refl {p : NodeId} {a : Arena Symbol} (h : a.Ok) : Grafted p a a .nil := ⟨h, (Forest.graft_nil _ _).symm⟩

theorem trans {p : NodeId} {a b c : Arena Symbol} {g g' : Forest Fact} (h : Grafted p a b g) (h' : Grafted p b c g') :
    Grafted p a c (g.append g') := ⟨h'.ok, by rw [h'.eq, h.eq, Forest.graft_graft]⟩

theorem inside {p c : NodeId} {a b d : Arena Symbol} {f : Fact} {e g : Forest Fact} (h : Grafted p a b (.cons c f e .nil))
    (hc : c.idx ∉ a.forest.idxs) (h' : Grafted c b d g) : Grafted p a d (.cons c f (e.append g) .nil) :=
  ⟨h'.ok, by rw [h'.eq, h.eq, Forest.graft_in (by rw [Forest.mapVal_idxs]; exact hc)]⟩

end Grafted

/-- A symbol is added. -/
theorem add_spec {s : Collector} (h : s.arena.Ok) (p : NodeId) (v : Symbol) :
    OkThat (fun q : NodeId × Collector => q.2.namespace = s.namespace ∧ q.1.idx ∉ s.arena.forest.idxs ∧
      Grafted p s.arena q.2.arena (.cons q.1 (factOf v) .nil .nil)) (s.add p v) := by
  unfold Collector.add
  refine OkThat.bindOption fun w hw => OkThat.ok ⟨rfl, Arena.fresh_notMem h, ?_, ?_⟩
  · obtain ⟨j, q, e, hj⟩ := Arena.has_of_get? hw
    exact Arena.ok_addChild h (Forest.mem_idxs.2 ⟨j, w, hj.flat, e⟩) v
  · have e : (s.arena.addChild p v).2.forest = s.arena.forest.graft p.idx (.cons s.arena.fresh v .nil .nil) := by
      unfold Arena.addChild
      rw [Arena.took_forest]
      rfl
    exact e ▸ Forest.mapVal_graft factOf p.idx _ _

/-- A symbol gets imports, trait rules or parameters. -/
theorem change_spec {s : Collector} (h : s.arena.Ok) (p i : NodeId) (f : Symbol → Symbol) (hf : ∀ v, factOf (f v) = factOf v) :
    OkThat (fun q : Collector => q.namespace = s.namespace ∧ Grafted p s.arena q.arena .nil) (s.change i f) := by
  unfold Collector.change
  refine OkThat.bindOption fun _ _ => OkThat.ok ⟨rfl, Arena.ok_modify h i f, ?_⟩
  rw [Forest.graft_nil]
  exact Forest.mapVal_modify factOf i.idx f hf _

theorem fact_addImports (v : Symbol) (is : List SymbolImport) : factOf (Collector.addImports v is) = factOf v := by
  unfold Collector.addImports
  split <;> rfl

theorem fact_addRules (v : Symbol) (rs : List TraitUseAlteration) : factOf (Collector.addRules v rs) = factOf v := by
  unfold Collector.addRules
  split <;> rfl

/-! ## One node -/

/-- What a visit does with the arena. -/
inductive Visited (node : Node) (p : NodeId) (s : Collector) : NextAction × Collector → Prop
  | lists {s' g facts} : s'.namespace = s.namespace → Grafted p s.arena s'.arena g → bare g = .flat facts → Lists node facts →
      Visited node p s (.abort, s')
  | opens {s' c f e} : s'.namespace = s.namespace → c.idx ∉ s.arena.forest.idxs → Grafted p s.arena s'.arena (.cons c f e .nil) →
      Opens s.namespace node f (bare e) → Visited node p s (.processChildren c, s')
  | passes : Declaring node = false → Visited node p s (.processChildren p, s)

theorem getRange_spot (r : NodeRange) : getRange r = spot r := rfl

theorem names_eq (l : List Node) : l.flatMap getTypeRef = names l := by
  fun_induction names l with
  | case1 => rfl
  | case2 t r ih => rw [List.flatMap_cons, ih]; rfl
  | case3 ts _ r ih => rw [List.flatMap_cons, ih]; rfl
  | case4 n r h1 h2 ih =>
    have e : getTypeRef n = [] := by
      unfold getTypeRef
      split
      · exact absurd rfl (h1 _)
      · exact absurd rfl (h2 _ _)
      · rfl
    rw [List.flatMap_cons, ih, e]
    rfl

theorem typesOf_eq (n : Node) : getTypeRefs n = typesOf n := by
  fun_induction getTypeRefs n with
  | case1 _ _ ih => rw [typesOf, ih]
  | case2 _ ts => rw [typesOf, names_eq]
  | case3 _ ts => cases ts <;> rfl
  | case4 ts => cases ts <;> rfl
  | case5 _ ts => cases ts <;> rfl
  | case6 => unfold typesOf; split <;> simp_all

theorem typesOf?_eq (n : Option Node) : (match n with | some t => getTypeRefs t | none => []) = typesOf? n := by
  cases n with
  | none => rfl
  | some n => exact typesOf_eq n

theorem both {a b c d : List TypeRef} (h : a = c) (h' : b = d) : a ++ b = c ++ d := by rw [h, h']

theorem varDocs_eq (doc : Option Node) : Collector.varDocs doc = varTypes doc := by
  unfold Collector.varDocs varTypes
  split
  · rw [List.flatMap_def]
    congr 2
    exact funext typesOf_eq
  · next h =>
    split
    · exact absurd rfl (h _ _ _ _ _ _ _)
    · rfl

theorem returnDocs_eq (doc : Option Node) : Collector.returnDocs doc = returnTypes doc := by
  unfold Collector.returnDocs returnTypes
  split
  · rw [List.flatMap_def]
    congr 2
    exact funext typesOf_eq
  · next h =>
    split
    · exact absurd rfl (h _ _ _ _ _ _ _)
    · rfl

theorem deprecated_eq (doc : Option Node) : Collector.deprecated doc = isDeprecated doc := by
  unfold Collector.deprecated
  split
  · next d _ _ _ => cases d <;> rfl
  · next h =>
    unfold isDeprecated
    split
    · exact absurd rfl (h _ _ _ _ _ _ _)
    · rfl

theorem visible_eq (k : Option Token) : Visibility.ofToken k = visible k := by
  unfold Visibility.ofToken visible
  cases k with
  | none => rfl
  | some k =>
    dsimp only
    split <;> simp_all

theorem toTypes_types {ts : List TypeRef} {l : List SymRef} (h : Collector.toTypes ts = some l) : l.map (·.typeRef) = ts := by
  induction ts generalizing l with
  | nil =>
    cases h
    rfl
  | cons t ts ih =>
    unfold Collector.toTypes at h
    rw [List.mapM_cons] at h
    obtain ⟨x, hx, h⟩ := Option.bind_eq_some_iff.1 h
    obtain ⟨l', hl, h⟩ := Option.bind_eq_some_iff.1 h
    cases h
    obtain ⟨r, _, hr⟩ := Option.bind_eq_some_iff.1 hx
    cases hr
    rw [List.map_cons, ih hl]

theorem toType_type {t : TypeRef} {x : SymRef} (h : SymRef.toType t = some x) : x.typeRef = t := by
  obtain ⟨r, _, hr⟩ := Option.bind_eq_some_iff.1 h
  cases hr
  rfl

theorem anyM_true {α : Type} {f : α → Option Bool} {l : List α} (h : Collector.anyM f l = some true) : ∃ x ∈ l, f x = some true := by
  induction l with
  | nil => cases h
  | cons x l ih =>
    unfold Collector.anyM at h
    split at h
    · cases h
    · next e => exact ⟨x, List.mem_cons_self, e⟩
    · obtain ⟨y, hy, e⟩ := ih h
      exact ⟨y, List.mem_cons_of_mem _ hy, e⟩

theorem anyM_false {α : Type} {f : α → Option Bool} {l : List α} (h : Collector.anyM f l = some false) :
    ∀ x ∈ l, f x = some false := by
  induction l with
  | nil => exact fun _ h => nomatch h
  | cons x l ih =>
    unfold Collector.anyM at h
    split at h
    · cases h
    · cases h
    · next e =>
      intro y hy
      rcases List.mem_cons.1 hy with rfl | hy
      · exact e
      · exact ih h y hy

theorem attribute_iff {l : List Node} {b : Bool} (h : Collector.isAttribute l = some b) : b = true ↔ HasAttribute l := by
  constructor
  · rintro rfl
    obtain ⟨a, ha, h⟩ := anyM_true h
    split at h
    · obtain ⟨e, he, h⟩ := anyM_true h
      split at h
      · next t =>
        obtain ⟨k, hk, h⟩ := Option.bind_eq_some_iff.1 h
        obtain ⟨n, hn, h⟩ := Option.bind_eq_some_iff.1 h
        have : n = c!"Attribute" := by simpa using h
        exact ⟨_, _, _, _, rfl, ha, t, k, he, hk, this ▸ hn⟩
      · cases h
    · cases h
  · rintro ⟨_, x, es, y, rfl, ha, t, k, he, hk, hn⟩
    cases b with
    | true => rfl
    | false =>
      have h1 := anyM_false h _ ha
      have h2 := anyM_false h1 _ he
      simp only [hk, hn, Option.bind_some, Option.bind_eq_bind] at h2
      cases h2

theorem around {node : Node} {doc : Option Node} {r : NodeRange} (h : Collector.rangeWithDoc node doc = some r) :
    Around node doc (getRange r) := by
  cases doc with
  | none => exact .bare h
  | some d =>
    obtain ⟨x, hx, h⟩ := Option.bind_eq_some_iff.1 h
    obtain ⟨y, hy, h⟩ := Option.bind_eq_some_iff.1 h
    cases h
    exact Around.commented (d := x) (r := y) hx hy

theorem visited_use (node : Node) (p : NodeId) (s : Collector) (h : s.arena.Ok) (hn : IsUse node = true) :
    OkThat (Visited node p s) (Collector.visitUse node p s) := by
  unfold Collector.visitUse
  refine OkThat.bindOption fun up _ => OkThat.bindOption fun is _ => ?_
  exact (change_spec h p _ _ fun v => fact_addImports v is).bind fun s' h' => OkThat.ok (.lists h'.1 h'.2 (facts := []) rfl (.use hn))

theorem visited_useTrait (node : Node) (p : NodeId) (s : Collector) (h : s.arena.Ok) (hn : IsUse node = true) :
    OkThat (Visited node p s) (Collector.visitUseTrait node p s) := by
  unfold Collector.visitUseTrait
  refine OkThat.bindOption fun is _ => OkThat.bindOption fun rs _ => ?_
  exact (change_spec h p _ _ fun v => (fact_addRules _ rs).trans (fact_addImports v is)).bind fun s' h' =>
    OkThat.ok (.lists h'.1 h'.2 (facts := []) rfl (.use hn))

theorem visited_namespace (k : Token) (t : Node) (p : NodeId) (s : Collector) (h : s.arena.Ok) :
    OkThat (Visited (.namespaceStatement k t) p s) (Collector.visitNamespace t p s) := by
  unfold Collector.visitNamespace
  split
  · refine OkThat.bindOption fun n hn => OkThat.bindOption fun x hx => OkThat.bindOption fun y _ => ?_
    exact (add_spec h p _).bind fun c hc => OkThat.ok (.opens hc.1 hc.2.1 hc.2.2 (.namespace hn hx))
  · exact OkThat.panic

theorem visited_class (k name : Token) (ab fin : Option Token) (impl : Option (List Node)) (ext : Option Node) (body : Node)
    (doc : Option Node) (atts : List Node) (p : NodeId) (s : Collector) (h : s.arena.Ok) :
    OkThat (Visited (.classStatement k name ab fin impl ext body doc atts) p s)
      (Collector.visitClass (.classStatement k name ab fin impl ext body doc atts) name impl ext doc atts p s) := by
  unfold Collector.visitClass
  refine OkThat.bindOption fun inh hinh => OkThat.bindOption fun sel hsel => OkThat.bindOption fun n hn =>
    OkThat.bindOption fun range hrange => OkThat.bindOption fun own hown => OkThat.bindOption fun impls himpls =>
    OkThat.bindOption fun att hatt => ?_
  refine (add_spec h p _).bind fun c hc => ?_
  refine (add_spec hc.2.2.ok c.1 _).bind fun m hm => OkThat.ok ?_
  refine .opens (hm.1.trans hc.1) hc.2.1 (hc.2.2.inside hc.2.1 hm.2.2) ?_
  have e : factOf { Symbol.default with
      «namespace» := s.namespace, name := n, kind := .cls, range := getRange range, selectionRange := getRange sel,
      inheritsFrom := inh, dataTypes := own :: impls, deprecated := Collector.deprecated doc, isAttribute := att } =
    { kind := .cls, name := n, place := some (spot range), namePlace := spot sel, deprecated := isDeprecated doc,
      «namespace» := s.namespace, parents := ext.map fun e => names [e], types := .one [name] :: names (impl.getD []),
      isAttribute := att } := by
    unfold factOf
    dsimp only [Symbol.default]
    rw [deprecated_eq, List.map_cons, toType_type hown, toTypes_types himpls, names_eq]
    congr 1
    cases ext with
    | none =>
      cases hinh
      rfl
    | some e =>
      obtain ⟨l, hl, rfl⟩ := Option.map_eq_some_iff.1 hinh
      rw [Option.map_some, Option.map_some, toTypes_types hl, ← names_eq, List.flatMap_cons, List.flatMap_nil, List.append_nil]
  rw [e]
  exact Opens.class hn hrange hsel (attribute_iff hatt)

theorem visited_trait (k name : Token) (body : Node) (doc : Option Node) (p : NodeId) (s : Collector) (h : s.arena.Ok) :
    OkThat (Visited (.traitStatement k name body doc) p s)
      (Collector.visitTrait (.traitStatement k name body doc) name doc p s) := by
  unfold Collector.visitTrait
  refine OkThat.bindOption fun sel hsel => OkThat.bindOption fun n hn => OkThat.bindOption fun range hrange => ?_
  refine (add_spec h p _).bind fun c hc => OkThat.ok (.opens hc.1 hc.2.1 hc.2.2 ?_)
  rw [deprecated_eq]
  exact Opens.trait hn hrange hsel

theorem visited_interface (k name : Token) (ext : Option (List Node)) (body : Node) (doc : Option Node) (p : NodeId) (s : Collector)
    (h : s.arena.Ok) : OkThat (Visited (.interface k name ext body doc) p s)
      (Collector.visitInterface (.interface k name ext body doc) name ext doc p s) := by
  unfold Collector.visitInterface
  refine OkThat.bindOption fun sel hsel => OkThat.bindOption fun n hn => OkThat.bindOption fun range hrange =>
    OkThat.bindOption fun inh hinh => ?_
  refine (add_spec h p _).bind fun c hc => OkThat.ok (.opens hc.1 hc.2.1 hc.2.2 ?_)
  have e : inh.map (fun l => l.map (·.typeRef)) = ext.map names := by
    cases ext with
    | none =>
      cases hinh
      rfl
    | some e =>
      obtain ⟨l, hl, rfl⟩ := Option.map_eq_some_iff.1 hinh
      rw [Option.map_some, Option.map_some, toTypes_types hl, names_eq]
  have := Opens.interface (ns := s.namespace) (k := k) (ext := ext) (body := body) (doc := doc) hn hrange hsel
  rw [← e, ← deprecated_eq] at this
  exact this

theorem visited_method (k : Token) (fin ref : Option Token) (name : Token) (vis ab : Option Token) (function : Node) (st : Option Token)
    (doc : Option Node) (atts : List Node) (p : NodeId) (s : Collector) (h : s.arena.Ok) :
    OkThat (Visited (.methodDefinitionStatement k fin ref name vis ab function st doc atts) p s)
      (Collector.visitMethod (.methodDefinitionStatement k fin ref name vis ab function st doc atts) name function st doc vis p s) := by
  unfold Collector.visitMethod
  split
  · next a b c ret d e =>
    refine OkThat.bindOption fun ts hts => OkThat.bindOption fun range hrange => OkThat.bindOption fun n hn =>
      OkThat.bindOption fun sel hsel => ?_
    refine (add_spec h p _).bind fun c hc => OkThat.ok (.opens hc.1 hc.2.1 hc.2.2 ?_)
    have ht := (toTypes_types hts).trans (both (typesOf?_eq ret) (returnDocs_eq doc))
    have := Opens.method (ns := s.namespace) (k := k) (fin := fin) (ref := ref) (vis := vis) (ab := ab) (st := st) (atts := atts)
      hn rfl (around hrange) hsel
    rw [← ht, ← deprecated_eq, ← visible_eq] at this
    exact this
  · next hf => exact OkThat.ok (.lists rfl (.refl h) (facts := []) rfl (.noMethod hf))

theorem visited_function (k : Token) (ref : Option Token) (name : Token) (function : Node) (atts : List Node) (p : NodeId)
    (s : Collector) (h : s.arena.Ok) : OkThat (Visited (.namedFunctionDefinitionStatement k ref name function atts) p s)
      (Collector.visitFunction (.namedFunctionDefinitionStatement k ref name function atts) name function p s) := by
  unfold Collector.visitFunction
  split
  · next a b c ret d e =>
    refine OkThat.bindOption fun ts hts => OkThat.bindOption fun range hrange => OkThat.bindOption fun n hn =>
      OkThat.bindOption fun sel hsel => ?_
    refine (add_spec h p _).bind fun c hc => OkThat.ok (.opens hc.1 hc.2.1 hc.2.2 ?_)
    have ht := (toTypes_types hts).trans (both (typesOf?_eq ret) (returnDocs_eq e))
    have := Opens.function (ns := s.namespace) (k := k) (ref := ref) (atts := atts) hn rfl (around hrange) hsel
    rw [← ht] at this
    exact this
  · next hf => exact OkThat.ok (.lists rfl (.refl h) (facts := []) rfl (.noFunction hf))

theorem visited_argument (type : Option Node) (name : Token) (dflt : Option Token) (value : Option Node) (spread ref : Option Token) (doc : Option Node)
    (atts : List Node) (p : NodeId) (s : Collector) (h : s.arena.Ok) :
    OkThat (Visited (.functionArgument type name dflt value spread ref doc atts) p s)
      (Collector.visitArgument (.functionArgument type name dflt value spread ref doc atts) type name doc p s) := by
  unfold Collector.visitArgument
  refine OkThat.bindOption fun ts hts => OkThat.bindOption fun n hn => OkThat.bindOption fun range hrange =>
    OkThat.bindOption fun sel hsel => ?_
  refine (add_spec h p _).bind fun c hc => ?_
  refine (change_spec hc.2.2.ok p p (fun v => { v with parameters := v.parameters ++ [⟨c.1⟩] }) fun _ => rfl).bind fun s' h' => ?_
  refine OkThat.ok (.lists (h'.1.trans hc.1) (hc.2.2.trans h'.2) (facts := [_]) rfl ?_)
  have ht := (toTypes_types hts).trans (both (typesOf?_eq type) (typesOf?_eq doc))
  have := Lists.argument (type := type) (dflt := dflt) (value := value) (spread := spread) (ref := ref) (doc := doc) (atts := atts)
    hn hrange hsel
  rw [← ht, ← deprecated_eq] at this
  exact this

theorem added_consts (whole : Node) (doc : Option Node) (p : NodeId) : ∀ (l : List Node) (s : Collector), s.arena.Ok →
    OkThat (fun s' : Collector => s'.namespace = s.namespace ∧ ∃ g fs, Grafted p s.arena s'.arena g ∧ bare g = .flat fs ∧
      Consts whole doc l fs) (Collector.addConsts whole doc p l s)
  | [], s, h => OkThat.ok ⟨rfl, .nil, [], .refl h, rfl, .nil⟩
  | n :: rest, s, h => by
    unfold Collector.addConsts
    split
    · next e => cases e
    · next e =>
      cases e
      refine OkThat.bindOption fun ts hts => OkThat.bindOption fun range hrange => OkThat.bindOption fun n hn => ?_
      refine (add_spec h p _).bind fun c hc => ?_
      refine (added_consts whole doc p rest c.2 hc.2.2.ok).mono fun s' h' => ?_
      obtain ⟨h1, g, fs, h2, h3, h4⟩ := h'
      refine ⟨h1.trans hc.1, _, _ :: fs, hc.2.2.trans h2, congrArg (Outline.cons _ .nil) h3, ?_⟩
      have ht := toTypes_types hts
      rw [varDocs_eq] at ht
      rw [deprecated_eq, visible_eq]
      have := fun vis value => Consts.const (vis := vis) (value := value) hn hrange h4
      rw [← ht] at this
      exact this _ _
    · next hne e =>
      cases e
      refine (added_consts whole doc p rest _ h).mono fun s' h' => ?_
      obtain ⟨h1, g, fs, h2, h3, h4⟩ := h'
      exact ⟨h1, g, fs, h2, h3, .other (fun a b c e => hne a b c e) h4⟩

theorem added_properties (range : NodeRange) (ts : List SymRef) (vis : Option Token) (dep : Option Bool) (p : NodeId) :
    ∀ (l : List Node) (s : Collector), s.arena.Ok →
    OkThat (fun s' : Collector => s'.namespace = s.namespace ∧ ∃ g fs, Grafted p s.arena s'.arena g ∧ bare g = .flat fs ∧
      Properties (fun n => factOf { Symbol.default with
        name := n, kind := .property, range := getRange range, selectionRange := getRange range, dataTypes := ts,
        visibility := Visibility.ofToken vis, deprecated := dep }) l fs) (Collector.addProperties range ts vis dep p l s)
  | [], s, h => OkThat.ok ⟨rfl, .nil, [], .refl h, rfl, .nil⟩
  | n :: rest, s, h => by
    unfold Collector.addProperties
    split
    · next e => cases e
    · next e =>
      cases e
      refine OkThat.bindOption fun n hn => ?_
      refine (add_spec h p _).bind fun c hc => ?_
      refine (added_properties range ts vis dep p rest c.2 hc.2.2.ok).mono fun s' h' => ?_
      obtain ⟨h1, g, fs, h2, h3, h4⟩ := h'
      exact ⟨h1.trans hc.1, _, _ :: fs, hc.2.2.trans h2, congrArg (Outline.cons _ .nil) h3, .property hn h4⟩
    · next hne e =>
      cases e
      refine (added_properties range ts vis dep p rest _ h).mono fun s' h' => ?_
      obtain ⟨h1, g, fs, h2, h3, h4⟩ := h'
      exact ⟨h1, g, fs, h2, h3, .other (fun a b e => hne a b e) h4⟩

theorem visited (node : Node) (p : NodeId) (s : Collector) (h : s.arena.Ok) :
    OkThat (Visited node p s) (Collector.visit node p s) := by
  unfold Collector.visit
  split
  · exact visited_use _ p s h rfl
  · exact visited_use _ p s h rfl
  · exact visited_use _ p s h rfl
  · exact visited_use _ p s h rfl
  · exact visited_useTrait _ p s h rfl
  · exact visited_useTrait _ p s h rfl
  · exact visited_useTrait _ p s h rfl
  · exact visited_useTrait _ p s h rfl
  · exact visited_namespace _ _ p s h
  · refine OkThat.bindOption fun n hn => OkThat.bindOption fun range hrange => ?_
    exact (add_spec h p _).bind fun c hc => OkThat.ok (.lists hc.1 hc.2.2 (facts := [_]) rfl (.const hn hrange))
  · exact visited_class _ _ _ _ _ _ _ _ _ p s h
  · exact visited_trait _ _ _ _ p s h
  · exact visited_interface _ _ _ _ _ p s h
  · refine (added_consts _ _ p _ s h).bind fun s' h' => ?_
    obtain ⟨h1, g, fs, h2, h3, h4⟩ := h'
    exact OkThat.ok (.lists h1 h2 h3 (.consts h4))
  · next name types text =>
    refine OkThat.bindOption fun range hrange => OkThat.bindOption fun ts hts => OkThat.bindOption fun n hn => ?_
    refine (add_spec h p _).bind fun c hc => OkThat.ok (.lists hc.1 hc.2.2 (facts := [_]) rfl ?_)
    have := Lists.documented (text := text) hn hrange
    rw [← toTypes_types hts] at this
    exact this
  · next ps doc vis type st ab atts =>
    refine OkThat.bindOption fun range hrange => OkThat.bindOption fun ts hts => ?_
    refine (added_properties range ts vis _ p _ s h).bind fun s' h' => ?_
    obtain ⟨h1, g, fs, h2, h3, h4⟩ := h'
    refine OkThat.ok (.lists h1 h2 h3 (.properties hrange ?_))
    have ht := (toTypes_types hts).trans (both (typesOf?_eq type) (varDocs_eq doc))
    rw [← ht, ← deprecated_eq, ← visible_eq]
    exact h4
  · exact visited_method _ _ _ _ _ _ _ _ _ _ p s h
  · refine OkThat.bindOption fun sel hsel => OkThat.bindOption fun range hrange => ?_
    exact (add_spec h p _).bind fun c hc => OkThat.ok (.opens hc.1 hc.2.1 hc.2.2 (.arrow hrange hsel))
  · exact visited_function _ _ _ _ _ p s h
  · exact visited_argument _ _ _ _ _ _ _ _ p s h
  · refine OkThat.bindOption fun n hn => OkThat.bindOption fun range hrange => OkThat.bindOption fun sel hsel => ?_
    exact (add_spec h p _).bind fun c hc => OkThat.ok (.lists hc.1 hc.2.2 (facts := [_]) rfl (.define hn hrange hsel))
  · next hne => exact OkThat.ok (.lists rfl (.refl h) (facts := []) rfl (.computed fun t e => hne t e))
  · refine OkThat.ok (.passes ?_)
    unfold Declaring
    split <;> first | (exfalso; solve_by_elim) | skip
    unfold IsUse
    split <;> first | (exfalso; solve_by_elim) | rfl

/-- The namespace at the beginning of a node. -/
theorem into (node : Node) (p : NodeId) (s : Collector) :
    OkThat (fun s' => s'.arena = s.arena ∧ Into s.namespace node s'.namespace) (Collector.before node p s) := by
  unfold Collector.before
  split
  · exact OkThat.bindOption fun n hn => OkThat.ok ⟨rfl, .statement hn⟩
  · exact OkThat.bindOption fun n hn => OkThat.ok ⟨rfl, .block hn⟩
  · exact OkThat.ok ⟨rfl, .global⟩
  · next h1 h2 h3 => exact OkThat.ok ⟨rfl, .other h1 h2 h3⟩

/-- The namespace behind a node. -/
theorem outOf (node : Node) (p : NodeId) (s : Collector) :
    OkThat (fun s' => s'.arena = s.arena ∧ OutOf s.namespace node s'.namespace) (Collector.after node p s) := by
  unfold Collector.after
  split
  · exact OkThat.ok ⟨rfl, .block⟩
  · next h => exact OkThat.ok ⟨rfl, .other h⟩

/-- The walk over a tree adds what it declares. -/
theorem traversed : ∀ (fuel : Nat) (node : Node) (p : NodeId) (s : Collector), s.arena.Ok →
    OkThat (fun s' => ∃ g, Grafted p s.arena s'.arena g ∧ One s.namespace node s'.namespace (bare g))
      (traverse Node.children Collector.visitor fuel node p s)
  | 0, _, _, _, _ => OkThat.deep
  | fuel + 1, node, p, s, h => by
    have many : ∀ (c : NodeId) (l : List Node) (s : Collector), s.arena.Ok →
        OkThat (fun s' => ∃ g, Grafted c s.arena s'.arena g ∧ Many s.namespace l s'.namespace (bare g))
          (l.foldlM (fun s n => traverse Node.children Collector.visitor fuel n c s) s) := by
      intro c l
      induction l with
      | nil => exact fun s h => OkThat.ok ⟨.nil, .refl h, .nil⟩
      | cons n l ih =>
        intro s h
        rw [List.foldlM_cons]
        refine (traversed fuel n c s h).bind fun s1 h1 => ?_
        obtain ⟨g1, h1, d1⟩ := h1
        refine (ih s1 h1.ok).mono fun s2 h2 => ?_
        obtain ⟨g2, h2, d2⟩ := h2
        exact ⟨_, h1.trans h2, bare_append g1 g2 ▸ .cons d1 d2⟩
    unfold traverse
    refine OkThat.bind (into node p s) fun s1 ⟨e1, d1⟩ => ?_
    rw [← e1] at h ⊢
    refine OkThat.bind (visited node p s1 h) fun q hq => ?_
    cases hq with
    | lists hn hg hb hl =>
      refine OkThat.mono (outOf node p _) fun s3 ⟨e3, d3⟩ => ⟨_, e3 ▸ hg, hb ▸ .lists d1 hl (hn ▸ d3)⟩
    | opens hn hc hg ho =>
      refine OkThat.bind (many _ _ _ hg.ok) fun s2 ⟨g2, h2, d2⟩ => ?_
      refine OkThat.mono (outOf node p _) fun s3 ⟨e3, d3⟩ => ⟨_, e3 ▸ hg.inside hc h2, ?_⟩
      rw [bare, bare_append]
      exact .opens d1 ho (hn ▸ d2) d3
    | passes hd =>
      refine OkThat.bind (many _ _ _ h) fun s2 ⟨g2, h2, d2⟩ => ?_
      exact OkThat.mono (outOf node p _) fun s3 ⟨e3, d3⟩ => ⟨_, e3 ▸ h2, .passes d1 hd d2 d3⟩

/-- The walk over a file adds what the file declares. -/
theorem walked (fuel : Nat) (p : NodeId) : ∀ (ast : List Node) (s : Collector), s.arena.Ok →
    OkThat (fun s' => ∃ g, Grafted p s.arena s'.arena g ∧ Many s.namespace ast s'.namespace (bare g))
      (ast.foldlM (fun s n => traverse Node.children Collector.visitor fuel n p s) s)
  | [], s, h => OkThat.ok ⟨.nil, .refl h, .nil⟩
  | n :: l, s, h => by
    rw [List.foldlM_cons]
    refine (traversed fuel n p s h).bind fun s1 ⟨g1, h1, d1⟩ => ?_
    refine (walked fuel p l s1 h1.ok).mono fun s2 ⟨g2, h2, d2⟩ => ?_
    exact ⟨_, h1.trans h2, bare_append g1 g2 ▸ .cons d1 d2⟩

/-! ## There is only one outline -/

theorem Into.unique {ns a b : Option Text} {node : Node} (h : Into ns node a) (h' : Into ns node b) : a = b := by
  cases h with
  | statement h =>
    cases h' with
    | statement h' => exact h.symm.trans h'
    | other h' _ _ => exact absurd rfl (h' _ _)
  | block h =>
    cases h' with
    | block h' => exact h.symm.trans h'
    | other _ h' _ => exact absurd rfl (h' _ _ _)
  | global =>
    cases h' with
    | global => rfl
    | other _ _ h' => exact absurd rfl (h' _ _)
  | other h1 h2 h3 =>
    cases h' with
    | statement => exact absurd rfl (h1 _ _)
    | block => exact absurd rfl (h2 _ _ _)
    | global => exact absurd rfl (h3 _ _)
    | other => rfl

theorem OutOf.unique {ns a b : Option Text} {node : Node} (h : OutOf ns node a) (h' : OutOf ns node b) : a = b := by
  cases h with
  | block =>
    cases h' with
    | block => rfl
    | other h' => exact absurd rfl (h' _ _ _)
  | other h =>
    cases h' with
    | block => exact absurd rfl (h _ _ _)
    | other => rfl

theorem Around.unique {node : Node} {doc : Option Node} {a b : LspRange} (h : Around node doc a) (h' : Around node doc b) : a = b := by
  cases h with
  | bare h =>
    cases h' with
    | bare h' => cases h.symm.trans h'; rfl
  | commented h1 h2 =>
    cases h' with
    | commented h3 h4 =>
      cases h1.symm.trans h3
      cases h2.symm.trans h4
      rfl

theorem Consts.unique {whole : Node} {doc : Option Node} {l : List Node} {a b : List Fact} (h : Consts whole doc l a)
    (h' : Consts whole doc l b) : a = b := by
  induction h generalizing b with
  | nil => cases h'; rfl
  | const h1 h2 _ ih =>
    cases h' with
    | const h3 h4 h5 =>
      cases h1.symm.trans h3
      cases h2.symm.trans h4
      rw [ih h5]
    | other h3 => exact absurd rfl (h3 _ _ _)
  | other h1 _ ih =>
    cases h' with
    | const => exact absurd rfl (h1 _ _ _)
    | other _ h5 => exact ih h5

theorem Properties.unique {f : Text → Fact} {l : List Node} {a b : List Fact} (h : Properties f l a) (h' : Properties f l b) : a = b := by
  induction h generalizing b with
  | nil => cases h'; rfl
  | property h1 _ ih =>
    cases h' with
    | property h3 h5 =>
      cases h1.symm.trans h3
      rw [ih h5]
    | other h3 => exact absurd rfl (h3 _ _)
  | other h1 _ ih =>
    cases h' with
    | property => exact absurd rfl (h1 _ _)
    | other _ h5 => exact ih h5

theorem Opens.unique {ns : Option Text} {node : Node} {f f' : Fact} {o o' : Outline} (h : Opens ns node f o) (h' : Opens ns node f' o') :
    f = f' ∧ o = o' := by
  cases h with
  | «namespace» h1 h2 =>
    cases h' with
    | «namespace» h3 h4 =>
      cases h1.symm.trans h3
      cases h2.symm.trans h4
      exact ⟨rfl, rfl⟩
  | «class» h1 h2 h3 h4 =>
    cases h' with
    | «class» h5 h6 h7 h8 =>
      cases h1.symm.trans h5
      cases h2.symm.trans h6
      cases h3.symm.trans h7
      cases Bool.eq_iff_iff.2 (h4.trans h8.symm)
      exact ⟨rfl, rfl⟩
  | trait h1 h2 h3 =>
    cases h' with
    | trait h5 h6 h7 =>
      cases h1.symm.trans h5
      cases h2.symm.trans h6
      cases h3.symm.trans h7
      exact ⟨rfl, rfl⟩
  | interface h1 h2 h3 =>
    cases h' with
    | interface h5 h6 h7 =>
      cases h1.symm.trans h5
      cases h2.symm.trans h6
      cases h3.symm.trans h7
      exact ⟨rfl, rfl⟩
  | method h1 h2 h3 h4 =>
    cases h' with
    | method h5 h6 h7 h8 =>
      cases h1.symm.trans h5
      cases h2.symm.trans h6
      cases h3.unique h7
      cases h4.symm.trans h8
      exact ⟨rfl, rfl⟩
  | function h1 h2 h3 h4 =>
    cases h' with
    | function h5 h6 h7 h8 =>
      cases h1.symm.trans h5
      cases h2.symm.trans h6
      cases h3.unique h7
      cases h4.symm.trans h8
      exact ⟨rfl, rfl⟩
  | arrow h1 h2 =>
    cases h' with
    | arrow h3 h4 =>
      cases h1.symm.trans h3
      cases h2.symm.trans h4
      exact ⟨rfl, rfl⟩

theorem Lists.unique {node : Node} {a b : List Fact} (h : Lists node a) (h' : Lists node b) : a = b := by
  cases h with
  | use h =>
    cases h' with
    | use => rfl
    | _ => cases h
  | const h1 h2 =>
    cases h' with
    | use h => cases h
    | const h3 h4 =>
      cases h1.symm.trans h3
      cases h2.symm.trans h4
      rfl
  | consts h1 =>
    cases h' with
    | use h => cases h
    | consts h2 => exact h1.unique h2
  | documented h1 h2 =>
    cases h' with
    | use h => cases h
    | documented h3 h4 =>
      cases h1.symm.trans h3
      cases h2.symm.trans h4
      rfl
  | properties h1 h2 =>
    cases h' with
    | use h => cases h
    | properties h3 h4 =>
      cases h1.symm.trans h3
      exact h2.unique h4
  | argument h1 h2 h3 =>
    cases h' with
    | use h => cases h
    | argument h4 h5 h6 =>
      cases h1.symm.trans h4
      cases h2.symm.trans h5
      cases h3.symm.trans h6
      rfl
  | define h1 h2 h3 =>
    cases h' with
    | use h => cases h
    | define h4 h5 h6 =>
      cases h1.symm.trans h4
      cases h2.symm.trans h5
      cases h3.symm.trans h6
      rfl
    | computed h => exact absurd rfl (h _)
  | computed h1 =>
    cases h' with
    | use h => cases h
    | define => exact absurd rfl (h1 _)
    | computed => rfl
  | noMethod h1 =>
    cases h' with
    | use h => cases h
    | noMethod => rfl
  | noFunction h1 =>
    cases h' with
    | use h => cases h
    | noFunction => rfl

theorem Opens.not_lists {ns : Option Text} {node : Node} {f : Fact} {o : Outline} {a : List Fact} (h : Opens ns node f o) :
    ¬ Lists node a := by
  intro h'
  cases h with
  | method h1 h2 =>
    cases h' with
    | use h => cases h
    | noMethod h => exact h _ _ _ _ _ _ h2
  | function h1 h2 =>
    cases h' with
    | use h => cases h
    | noFunction h => exact h _ _ _ _ _ _ h2
  | _ =>
    cases h' with
    | use h => cases h

theorem Opens.declaring {ns : Option Text} {node : Node} {f : Fact} {o : Outline} (h : Opens ns node f o) : Declaring node = true := by
  cases h <;> rfl

theorem Lists.declaring {node : Node} {a : List Fact} (h : Lists node a) : Declaring node = true := by
  cases h with
  | use h =>
    unfold Declaring
    split
    all_goals first | rfl | exact h
  | _ => rfl

mutual

theorem One.unique {ns : Option Text} {node : Node} {a b : Option Text} {o o' : Outline} :
    One ns node a o → One ns node b o' → a = b ∧ o = o'
  | .opens i1 h1 m1 e1, .opens i2 h2 m2 e2 => by
    cases i1.unique i2
    obtain ⟨rfl, rfl⟩ := h1.unique h2
    obtain ⟨rfl, rfl⟩ := m1.unique m2
    exact ⟨e1.unique e2, rfl⟩
  | .opens i1 h1 m1 e1, .lists i2 h2 e2 => absurd h2 h1.not_lists
  | .opens i1 h1 m1 e1, .passes i2 h2 m2 e2 => absurd (h1.declaring.symm.trans h2) (by decide)
  | .lists i1 h1 e1, .opens i2 h2 m2 e2 => absurd h1 h2.not_lists
  | .lists i1 h1 e1, .lists i2 h2 e2 => by
    cases i1.unique i2
    cases h1.unique h2
    exact ⟨e1.unique e2, rfl⟩
  | .lists i1 h1 e1, .passes i2 h2 m2 e2 => absurd (h1.declaring.symm.trans h2) (by decide)
  | .passes i1 h1 m1 e1, .opens i2 h2 m2 e2 => absurd (h2.declaring.symm.trans h1) (by decide)
  | .passes i1 h1 m1 e1, .lists i2 h2 e2 => absurd (h2.declaring.symm.trans h1) (by decide)
  | .passes i1 h1 m1 e1, .passes i2 h2 m2 e2 => by
    cases i1.unique i2
    obtain ⟨rfl, rfl⟩ := m1.unique m2
    exact ⟨e1.unique e2, rfl⟩

theorem Many.unique {ns : Option Text} {l : List Node} {a b : Option Text} {o o' : Outline} :
    Many ns l a o → Many ns l b o' → a = b ∧ o = o'
  | .nil, .nil => ⟨rfl, rfl⟩
  | .cons h1 m1, .cons h2 m2 => by
    obtain ⟨rfl, rfl⟩ := h1.unique h2
    obtain ⟨rfl, rfl⟩ := m1.unique m2
    exact ⟨rfl, rfl⟩

end

/-! ## Files -/

open Backend in
/-- After the symbols of a file are collected the file is the last root, and below it are the declarations of its tree.  The other
files are as they were before, without the old version of this file. -/
theorem collected {h : Host} {path : Text} {ast : List Node} {range : LspRange} {st st' : Backend} (ha : st.arena.Ok)
    (hf : ∀ o, Dict.get? st.files path = some o → st.arena.Live o) (hc : collectSymbols h path ast range st = .ok st') :
    ∃ root g ns, Dict.get? st'.files path = some root ∧ root.idx ∉ st.arena.forest.idxs ∧ st'.arena.Ok ∧
      st'.arena.forest.mapVal factOf =
        (match Dict.get? st.files path with
          | some old => (st.arena.forest.mapVal factOf).replace old.idx fun _ => .nil
          | none => st.arena.forest.mapVal factOf).append (.cons root (factOf (fileSymbol path range)) g .nil) ∧
      Many none ast ns (bare g) := by
  unfold collectSymbols at hc
  obtain ⟨c, hw, hc⟩ := Out.bind_eq_ok hc
  have hfresh : st.arena.fresh.idx ∉ st.arena.forest.idxs := Arena.fresh_notMem ha
  obtain ⟨g, hg, hm⟩ := walked h.fuel _ ast _ (Arena.ok_addRoot ha _) c hw
  have e : c.arena.forest.mapVal factOf =
      (st.arena.forest.mapVal factOf).append (.cons st.arena.fresh (factOf (fileSymbol path range)) g .nil) := by
    rw [hg.eq]
    have e0 : (st.arena.addRoot (fileSymbol path range)).2.forest =
        st.arena.forest.append (.cons st.arena.fresh (fileSymbol path range) .nil .nil) := by
      unfold Arena.addRoot
      rw [Arena.took_forest]
      rfl
    dsimp only
    rw [e0, Forest.mapVal_append]
    exact Forest.graft_put (by rw [Forest.mapVal_idxs]; exact hfresh)
  refine ⟨st.arena.fresh, g, c.namespace, ?_⟩
  obtain ⟨st1, h1, hc⟩ := Out.bind_eq_ok hc
  obtain ⟨kids, _, hc⟩ := Out.bind_eq_ok hc
  cases hc
  dsimp only at h1 ⊢
  cases ho : Dict.get? st.files path with
  | none =>
    rw [ho] at h1
    cases h1
    exact ⟨(by rw [Dict.get?_insert, if_pos rfl]; rfl), hfresh, hg.ok, e, hm⟩
  | some old =>
    rw [ho] at h1
    obtain ⟨k1, _, h1⟩ := Out.bind_eq_ok h1
    obtain ⟨k2, hk, h1⟩ := Out.bind_eq_ok h1
    cases h1
    refine ⟨(by rw [Dict.get?_insert, if_pos rfl]; rfl), hfresh, Arena.ok_removeSubtree hg.ok old, ?_, hm⟩
    obtain ⟨x, hx, _⟩ := Option.map_eq_some_iff.1 (Out.ofOption_ok hk)
    have e2 : (c.arena.removeSubtree old).forest = c.arena.forest.replace old.idx fun _ => .nil := by
      unfold Arena.removeSubtree
      dsimp only at hx
      rw [hx]
    refine (congrArg (Forest.mapVal factOf) e2).trans ?_
    rw [Forest.mapVal_without, e, Forest.replace_front]
    have hold : old.idx ∈ st.arena.forest.idxs := by
      obtain ⟨v, p, hv⟩ := (hf old ho).has
      exact Forest.mem_idxs.2 ⟨old, v, hv.flat, rfl⟩
    have hn := hg.ok.forest
    rw [← Forest.mapVal_idxs factOf, e, Forest.idxs_behind, List.nodup_append, Forest.mapVal_idxs] at hn
    exact fun hi => hn.2.2 _ hold _ hi rfl

open Backend in
/-- **C66**: the symbols of a file are the declarations of its tree. -/
theorem C66_file {h : Host} {path : Text} {ast : List Node} {range : LspRange} {st st' : Backend} (ha : st.arena.Ok)
    (hf : ∀ o, Dict.get? st.files path = some o → st.arena.Live o) (hc : collectSymbols h path ast range st = .ok st') :
    ∃ root file kids ns, Dict.get? st'.files path = some root ∧ st'.arena.forest.node? root.idx = some (root, file, kids) ∧
      factOf file = { kind := .file, name := path, place := some range, namePlace := range } ∧ Many none ast ns (outlineOf kids) := by
  obtain ⟨root, g, ns, h1, h2, h3, h4, h5⟩ := collected ha hf hc
  obtain ⟨x, t, e, hx, ht⟩ := Forest.mapVal_parts h4
  cases t with
  | nil => cases ht
  | cons i v k r =>
    injection ht with t1 t2 t3 t4
    cases r with
    | cons => cases t4
    | nil =>
      subst t1
      refine ⟨i, v, k, ns, h1, ?_, t2.trans rfl, ?_⟩
      · rw [e]
        refine Forest.node?_behind ?_
        have hn := h3.forest
        rw [e, Forest.idxs_behind, List.nodup_append] at hn
        exact fun hi => hn.2.2 _ hi i.idx (by simp) rfl
      · rw [← bare_mapVal, t3]
        exact h5

open Backend in
/-- **C66**, for every history of requests: whenever a file is read, its symbols are the declarations of the new tree, and those of the
other files stay. -/
theorem C66_served {h : Host} {path : Text} {ast : List Node} {range : LspRange} {st st' : Backend} (hs : Serving h st)
    (hc : collectSymbols h path ast range st = .ok st') :
    (∃ root file kids ns, Dict.get? st'.files path = some root ∧ st'.arena.forest.node? root.idx = some (root, file, kids) ∧
      factOf file = { kind := .file, name := path, place := some range, namePlace := range } ∧ Many none ast ns (outlineOf kids)) ∧
    ∃ root g, st'.arena.forest.mapVal factOf =
        (match Dict.get? st.files path with
          | some old => (st.arena.forest.mapVal factOf).replace old.idx fun _ => .nil
          | none => st.arena.forest.mapVal factOf).append (.cons root (factOf (fileSymbol path range)) g .nil) := by
  have hl : ∀ o, Dict.get? st.files path = some o → st.arena.Live o := by
    intro o ho
    obtain ⟨v, hv, _⟩ := hs.clean.files path o ho
    exact hv.live
  obtain ⟨root, g, ns, _, _, _, h4, _⟩ := collected hs.clean.arena hl hc
  exact ⟨C66_file hs.clean.arena hl hc, root, g, h4⟩

/-- **C66**: a tree has only one outline, so the theorems above determine the symbols. -/
theorem C66_unique {ast : List Node} {a b : Option Text} {o o' : Outline} (h : Many none ast a o) (h' : Many none ast b o') : o = o' :=
  (h.unique h').2

/-! ## Examples and what differs from PHP -/

/-- The symbols of a forest in order, with their depth. -/
def listed : Nat → Forest Symbol → List (Nat × SymbolKind × Text)
  | _, .nil => []
  | d, .cons _ v k r => (d, v.kind, v.name) :: (listed (d + 1) k ++ listed d r)

/-- The symbols of a text. -/
def symbolsOf (source : Text) : List (Nat × SymbolKind × Text) :=
  match reindex c!"f" source Backend.empty with
  | .ok st => listed 0 st.arena.forest
  | _ => []

/-- The symbols of a text that satisfy a test. -/
def anySymbol (source : Text) (test : Symbol → Bool) : Bool :=
  match reindex c!"f" source Backend.empty with
  | .ok st => st.arena.forest.flat.any fun x => test x.2
  | _ => false

/-- A file with a namespace, a class and its members. -/
example : symbolsOf c!"<?php namespace A; class C { const X = 1; public $p; function m($a) {} } function g() {}" =
    [(0, .file, c!"f"), (1, .namespace, c!"A"), (1, .cls, c!"C"), (2, .magicConst, c!"class"), (2, .constant, c!"X"),
      (2, .property, c!"$p"), (2, .method, c!"m"), (3, .functionParameter, c!"$a"), (1, .function, c!"g")] := by
  decide +kernel

/-- The hypotheses of `C66_served` hold for it. -/
example : Backend.Serving plainHost Backend.empty ∧ ∃ st',
    Backend.collectSymbols plainHost c!"f" (treeOf c!"<?php class C { function m($a) {} }") (getRange .empty) Backend.empty = .ok st' := by
  refine ⟨.start, ?_⟩
  have : (match Backend.collectSymbols plainHost c!"f" (treeOf c!"<?php class C { function m($a) {} }") (getRange .empty) Backend.empty with
    | .ok _ => true
    | _ => false) = true := by decide +kernel
  split at this
  · next st' e => exact ⟨st', e⟩
  · cases this

/-- **C66 violated**: the parameter of an anonymous function is a symbol of the function around it. -/
theorem C66_violated_closure : symbolsOf c!"<?php function f($a) { return function ($b) { return 1; }; }" =
    [(0, .file, c!"f"), (1, .function, c!"f"), (2, .functionParameter, c!"$a"), (2, .functionParameter, c!"$b")] := by
  decide +kernel

/-- **C66 violated**: a method of an anonymous class is a symbol of the method around it. -/
theorem C66_violated_anonymous : symbolsOf c!"<?php class A { function m() { return new class { function n() {} }; } }" =
    [(0, .file, c!"f"), (1, .cls, c!"A"), (2, .magicConst, c!"class"), (2, .method, c!"m"), (3, .method, c!"n")] := by
  decide +kernel

/-- **C66 violated**: a static property is not static, and a deprecated function is not deprecated; methods are both. -/
theorem C66_violated_marks :
    anySymbol c!"<?php class A { public static $p; }" (fun v => v.kind = .property) = true ∧
    anySymbol c!"<?php class A { public static $p; }" (fun v => v.kind = .property ∧ v.isStatic) = false ∧
    anySymbol c!"<?php class A { static function m() {} }" (fun v => v.kind = .method ∧ v.isStatic) = true ∧
    anySymbol c!"<?php /** @deprecated */ function g() {}" (fun v => v.kind = .function) = true ∧
    anySymbol c!"<?php /** @deprecated */ function g() {}" (fun v => v.deprecated = some true) = false ∧
    anySymbol c!"<?php class A { /** @deprecated */ function m() {} }" (fun v => v.deprecated = some true) = true := by
  decide +kernel

end Declared

end PhpLs
