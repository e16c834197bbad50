import Verif.Grammar
import Verif.GoodAttr

/-!
# Tokens of parse results

`Good T a`: every token stored in the value `a` satisfies `T`.  Specification device for `Verif/ParserRel.lean`; the
lemmas for the constructors of `Node` are generated from the fields of the constructors.
-/

namespace PhpLs.Parser

open PhpLs

set_option linter.unusedSimpArgs false
set_option linter.unusedSectionVars false

/-- Values that hold tokens. -/
class Val (α : Type) where
  toks : α → List Token

/-- Every token in `a` satisfies `T`. -/
def Good (T : Token → Prop) [Val α] (a : α) : Prop := ∀ k ∈ Val.toks a, T k

instance : Val Token := ⟨fun k => [k]⟩
instance : Val Node := ⟨Node.toks⟩
instance : Val Unit := ⟨fun _ => []⟩
instance : Val Bool := ⟨fun _ => []⟩
instance : Val Ctx := ⟨fun _ => []⟩
instance : Val TT := ⟨fun _ => []⟩
instance [Val α] : Val (Option α) := ⟨fun o => o.elim [] Val.toks⟩
instance instValList [Val α] : Val (List α) := ⟨fun l => l.flatMap Val.toks⟩
instance : Val TypeRef := ⟨fun t => t.kind⟩
instance [Val α] [Val β] : Val (α × β) := ⟨fun p => Val.toks p.1 ++ Val.toks p.2⟩
instance [Val α] [Val β] : Val (α ⊕ β) := ⟨fun p => p.elim Val.toks Val.toks⟩

/-- The tokens of an error. -/
def Err.toks : Err → List Token
  | .wrongToken _ k => [k]
  | .missingIdentifier k => [k]
  | .unexpectedToken k => [k]
  | .illegalOffsetType e => e.toks
  | .eof => []

instance : Val Err := ⟨Err.toks⟩

section
variable {T : Token → Prop} {α β : Type} [Val α] [Val β]

theorem good_token (k : Token) : Good T k ↔ T k := by simp [Good, Val.toks]
theorem good_intro {a : α} (h : Good T a) : Good T a := h
theorem good_unit (k : Unit) : Good T k ↔ True := by simp [Good, Val.toks]
theorem good_bool (k : Bool) : Good T k ↔ True := by simp [Good, Val.toks]
theorem good_ctx (k : Ctx) : Good T k ↔ True := by simp [Good, Val.toks]
theorem good_tt (k : TT) : Good T k ↔ True := by simp [Good, Val.toks]
theorem good_none : Good T (none : Option α) ↔ True := by simp [Good, Val.toks]
theorem good_some (a : α) : Good T (some a) ↔ Good T a := by simp [Good, Val.toks]
theorem good_pair (a : α) (b : β) : Good T (a, b) ↔ Good T a ∧ Good T b := by
  simp [Good, Val.toks, or_imp, forall_and]
theorem good_prod (p : α × β) : Good T p ↔ Good T p.1 ∧ Good T p.2 := good_pair p.1 p.2
theorem good_inl (a : α) : Good T (Sum.inl a : α ⊕ β) ↔ Good T a := by simp [Good, Val.toks]
theorem good_inr (b : β) : Good T (Sum.inr b : α ⊕ β) ↔ Good T b := by simp [Good, Val.toks]
theorem good_nil : Good T ([] : List α) ↔ True := by simp [Good, Val.toks]
theorem good_cons (a : α) (l : List α) : Good T (a :: l) ↔ Good T a ∧ Good T l := by
  simp only [Good, Val.toks, List.flatMap_cons, List.mem_append, or_imp, forall_and]
theorem good_append (l m : List α) : Good T (l ++ m) ↔ Good T l ∧ Good T m := by
  simp only [Good, Val.toks, List.flatMap_append, List.mem_append, or_imp, forall_and]
theorem good_toList (o : Option α) : Good T o.toList ↔ Good T o := by
  cases o <;> simp [Good, Val.toks]
theorem good_list (l : List α) : Good T l ↔ ∀ a ∈ l, Good T a := by
  induction l with
  | nil => simp [good_nil]
  | cons a l ih => simp [good_cons, ih]
theorem good_typeRefOf (l : List Token) (m : Bool) : Good T (⟨l, m⟩ : TypeRef) ↔ Good T l := by
  simp [Good, Val.toks]

theorem good_wrongToken (e : List TT) (k : Token) : Good T (Err.wrongToken e k) ↔ T k := by
  simp [Good, Val.toks, Err.toks]
theorem good_missingIdentifier (k : Token) : Good T (Err.missingIdentifier k) ↔ T k := by
  simp [Good, Val.toks, Err.toks]
theorem good_unexpectedToken (k : Token) : Good T (Err.unexpectedToken k) ↔ T k := by
  simp [Good, Val.toks, Err.toks]
theorem good_illegalOffsetType (n : Node) : Good T (Err.illegalOffsetType n) ↔ Good T n := by
  simp [Good, Val.toks, Err.toks]
theorem good_eof : Good T Err.eof ↔ True := by simp [Good, Val.toks, Err.toks]

theorem toksL_eq : ∀ l : List Node, Node.toksL l = Val.toks l
  | [] => by simp [Node.toksL, Val.toks]
  | n :: r => by
    have := toksL_eq r
    simp only [Val.toks] at this
    simp [Node.toksL, Val.toks, this]

theorem toksO_eq (o : Option Node) : Node.toksO o = Val.toks o := by cases o <;> simp [Node.toksO, Val.toks]

theorem toksOL_eq (o : Option (List Node)) : Node.toksOL o = Val.toks o := by
  cases o with
  | none => simp [Node.toksOL, Val.toks]
  | some l => simp [Node.toksOL, toksL_eq, Val.toks]

theorem toksLO_eq : ∀ l : List (Option Node), Node.toksLO l = Val.toks l
  | [] => by simp [Node.toksLO, Val.toks]
  | n :: r => by
    have := toksLO_eq r
    simp only [Val.toks] at this
    simp [Node.toksLO, Val.toks, this, toksO_eq]

theorem toksTR_eq (o : Option (List TypeRef)) : TypeRef.toksOL o = Val.toks o := by
  cases o <;> simp [TypeRef.toksOL, Val.toks]

theorem toList_eq (o : Option Token) : o.toList = Val.toks o := by cases o <;> simp [Val.toks]

theorem good_n_docComment (a : Token) (b : List Node) (c : Text) (d : Bool) (e : List Node) (f : List Node) (g : List Node) : Good T (Node.docComment a b c d e f g) ↔ Good T a ∧ Good T b ∧ Good T e ∧ Good T f ∧ Good T g := by
  have e1 : Val.toks (Node.docComment a b c d e f g) =
      [a] ++ Node.toksL b ++ Node.toksL e ++ Node.toksL f ++ Node.toksL g := rfl
  have e2 : Val.toks (Node.docComment a b c d e f g) =
      Val.toks a ++ Val.toks b ++ Val.toks e ++ Val.toks f ++ Val.toks g := by
    rw [e1]; try simp only [toksL_eq, toksO_eq, toksOL_eq, toksLO_eq, toksTR_eq, toList_eq]
    try rfl
  unfold Good
  rw [e2]
  try simp only [List.mem_append, or_imp, forall_and, and_assoc]

theorem good_n_docCommentParam (a : Token) (b : Option (List TypeRef)) (c : Text) : Good T (Node.docCommentParam a b c) ↔ Good T a ∧ Good T b := by
  have e1 : Val.toks (Node.docCommentParam a b c) =
      [a] ++ TypeRef.toksOL b := rfl
  have e2 : Val.toks (Node.docCommentParam a b c) =
      Val.toks a ++ Val.toks b := by
    rw [e1]; try simp only [toksL_eq, toksO_eq, toksOL_eq, toksLO_eq, toksTR_eq, toList_eq]
    try rfl
  unfold Good
  rw [e2]
  try simp only [List.mem_append, or_imp, forall_and, and_assoc]

theorem good_n_docCommentProperty (a : Token) (b : Option (List TypeRef)) (c : Text) : Good T (Node.docCommentProperty a b c) ↔ Good T a ∧ Good T b := by
  have e1 : Val.toks (Node.docCommentProperty a b c) =
      [a] ++ TypeRef.toksOL b := rfl
  have e2 : Val.toks (Node.docCommentProperty a b c) =
      Val.toks a ++ Val.toks b := by
    rw [e1]; try simp only [toksL_eq, toksO_eq, toksOL_eq, toksLO_eq, toksTR_eq, toList_eq]
    try rfl
  unfold Good
  rw [e2]
  try simp only [List.mem_append, or_imp, forall_and, and_assoc]

theorem good_n_docCommentVar (a : Token) (b : Option (List TypeRef)) (c : Text) : Good T (Node.docCommentVar a b c) ↔ Good T a ∧ Good T b := by
  have e1 : Val.toks (Node.docCommentVar a b c) =
      [a] ++ TypeRef.toksOL b := rfl
  have e2 : Val.toks (Node.docCommentVar a b c) =
      Val.toks a ++ Val.toks b := by
    rw [e1]; try simp only [toksL_eq, toksO_eq, toksOL_eq, toksLO_eq, toksTR_eq, toList_eq]
    try rfl
  unfold Good
  rw [e2]
  try simp only [List.mem_append, or_imp, forall_and, and_assoc]

theorem good_n_docCommentReturn (a : Option (List TypeRef)) (b : Text) : Good T (Node.docCommentReturn a b) ↔ Good T a := by
  have e1 : Val.toks (Node.docCommentReturn a b) =
      TypeRef.toksOL a := rfl
  have e2 : Val.toks (Node.docCommentReturn a b) =
      Val.toks a := by
    rw [e1]; try simp only [toksL_eq, toksO_eq, toksOL_eq, toksLO_eq, toksTR_eq, toList_eq]
    try rfl
  unfold Good
  rw [e2]
  try simp only [List.mem_append, or_imp, forall_and, and_assoc]

theorem good_n_unary (a : Node) (b : Token) : Good T (Node.unary a b) ↔ Good T a ∧ Good T b := by
  have e1 : Val.toks (Node.unary a b) =
      a.toks ++ [b] := rfl
  have e2 : Val.toks (Node.unary a b) =
      Val.toks a ++ Val.toks b := by
    rw [e1]; try simp only [toksL_eq, toksO_eq, toksOL_eq, toksLO_eq, toksTR_eq, toList_eq]
    try rfl
  unfold Good
  rw [e2]
  try simp only [List.mem_append, or_imp, forall_and, and_assoc]

theorem good_n_postUnary (a : Node) (b : Token) : Good T (Node.postUnary a b) ↔ Good T a ∧ Good T b := by
  have e1 : Val.toks (Node.postUnary a b) =
      a.toks ++ [b] := rfl
  have e2 : Val.toks (Node.postUnary a b) =
      Val.toks a ++ Val.toks b := by
    rw [e1]; try simp only [toksL_eq, toksO_eq, toksOL_eq, toksLO_eq, toksTR_eq, toList_eq]
    try rfl
  unfold Good
  rw [e2]
  try simp only [List.mem_append, or_imp, forall_and, and_assoc]

theorem good_n_const (a : Token) (b : Token) (c : Node) : Good T (Node.const a b c) ↔ Good T a ∧ Good T b ∧ Good T c := by
  have e1 : Val.toks (Node.const a b c) =
      [a] ++ [b] ++ c.toks := rfl
  have e2 : Val.toks (Node.const a b c) =
      Val.toks a ++ Val.toks b ++ Val.toks c := by
    rw [e1]; try simp only [toksL_eq, toksO_eq, toksOL_eq, toksLO_eq, toksTR_eq, toList_eq]
    try rfl
  unfold Good
  rw [e2]
  try simp only [List.mem_append, or_imp, forall_and, and_assoc]

theorem good_n_binary (a : Node) (b : Token) (c : Node) : Good T (Node.binary a b c) ↔ Good T a ∧ Good T b ∧ Good T c := by
  have e1 : Val.toks (Node.binary a b c) =
      a.toks ++ [b] ++ c.toks := rfl
  have e2 : Val.toks (Node.binary a b c) =
      Val.toks a ++ Val.toks b ++ Val.toks c := by
    rw [e1]; try simp only [toksL_eq, toksO_eq, toksOL_eq, toksLO_eq, toksTR_eq, toList_eq]
    try rfl
  unfold Good
  rw [e2]
  try simp only [List.mem_append, or_imp, forall_and, and_assoc]

theorem good_n_ternary (a : Node) (b : Token) (c : Option Node) (d : Token) (e : Node) : Good T (Node.ternary a b c d e) ↔ Good T a ∧ Good T b ∧ Good T c ∧ Good T d ∧ Good T e := by
  have e1 : Val.toks (Node.ternary a b c d e) =
      a.toks ++ [b] ++ Node.toksO c ++ [d] ++ e.toks := rfl
  have e2 : Val.toks (Node.ternary a b c d e) =
      Val.toks a ++ Val.toks b ++ Val.toks c ++ Val.toks d ++ Val.toks e := by
    rw [e1]; try simp only [toksL_eq, toksO_eq, toksOL_eq, toksLO_eq, toksTR_eq, toList_eq]
    try rfl
  unfold Good
  rw [e2]
  try simp only [List.mem_append, or_imp, forall_and, and_assoc]

theorem good_n_missing (a : Token) : Good T (Node.missing a) ↔ Good T a := by
  have e1 : Val.toks (Node.missing a) =
      [a] := rfl
  have e2 : Val.toks (Node.missing a) =
      Val.toks a := by
    rw [e1]; try simp only [toksL_eq, toksO_eq, toksOL_eq, toksLO_eq, toksTR_eq, toList_eq]
    try rfl
  unfold Good
  rw [e2]
  try simp only [List.mem_append, or_imp, forall_and, and_assoc]

theorem good_n_literal (a : Token) : Good T (Node.literal a) ↔ Good T a := by
  have e1 : Val.toks (Node.literal a) =
      [a] := rfl
  have e2 : Val.toks (Node.literal a) =
      Val.toks a := by
    rw [e1]; try simp only [toksL_eq, toksO_eq, toksOL_eq, toksLO_eq, toksTR_eq, toList_eq]
    try rfl
  unfold Good
  rw [e2]
  try simp only [List.mem_append, or_imp, forall_and, and_assoc]

theorem good_n_variable (a : Token) : Good T (Node.variable a) ↔ Good T a := by
  have e1 : Val.toks (Node.variable a) =
      [a] := rfl
  have e2 : Val.toks (Node.variable a) =
      Val.toks a := by
    rw [e1]; try simp only [toksL_eq, toksO_eq, toksOL_eq, toksLO_eq, toksTR_eq, toList_eq]
    try rfl
  unfold Good
  rw [e2]
  try simp only [List.mem_append, or_imp, forall_and, and_assoc]

theorem good_n_lexicalVariable (a : Option Token) (b : Token) : Good T (Node.lexicalVariable a b) ↔ Good T a ∧ Good T b := by
  have e1 : Val.toks (Node.lexicalVariable a b) =
      a.toList ++ [b] := rfl
  have e2 : Val.toks (Node.lexicalVariable a b) =
      Val.toks a ++ Val.toks b := by
    rw [e1]; try simp only [toksL_eq, toksO_eq, toksOL_eq, toksLO_eq, toksTR_eq, toList_eq]
    try rfl
  unfold Good
  rw [e2]
  try simp only [List.mem_append, or_imp, forall_and, and_assoc]

theorem good_n_aliasedVariable (a : Token) (b : Node) : Good T (Node.aliasedVariable a b) ↔ Good T a ∧ Good T b := by
  have e1 : Val.toks (Node.aliasedVariable a b) =
      [a] ++ b.toks := rfl
  have e2 : Val.toks (Node.aliasedVariable a b) =
      Val.toks a ++ Val.toks b := by
    rw [e1]; try simp only [toksL_eq, toksO_eq, toksOL_eq, toksLO_eq, toksTR_eq, toList_eq]
    try rfl
  unfold Good
  rw [e2]
  try simp only [List.mem_append, or_imp, forall_and, and_assoc]

theorem good_n_dynamicVariable (a : Token) (b : Token) (c : Node) (d : Token) : Good T (Node.dynamicVariable a b c d) ↔ Good T a ∧ Good T b ∧ Good T c ∧ Good T d := by
  have e1 : Val.toks (Node.dynamicVariable a b c d) =
      [a] ++ [b] ++ c.toks ++ [d] := rfl
  have e2 : Val.toks (Node.dynamicVariable a b c d) =
      Val.toks a ++ Val.toks b ++ Val.toks c ++ Val.toks d := by
    rw [e1]; try simp only [toksL_eq, toksO_eq, toksOL_eq, toksLO_eq, toksTR_eq, toList_eq]
    try rfl
  unfold Good
  rw [e2]
  try simp only [List.mem_append, or_imp, forall_and, and_assoc]

theorem good_n_staticVariable (a : Token) (b : Option Token) (c : Option Node) : Good T (Node.staticVariable a b c) ↔ Good T a ∧ Good T b ∧ Good T c := by
  have e1 : Val.toks (Node.staticVariable a b c) =
      [a] ++ b.toList ++ Node.toksO c := rfl
  have e2 : Val.toks (Node.staticVariable a b c) =
      Val.toks a ++ Val.toks b ++ Val.toks c := by
    rw [e1]; try simp only [toksL_eq, toksO_eq, toksOL_eq, toksLO_eq, toksTR_eq, toList_eq]
    try rfl
  unfold Good
  rw [e2]
  try simp only [List.mem_append, or_imp, forall_and, and_assoc]

theorem good_n_identifier (a : Token) : Good T (Node.identifier a) ↔ Good T a := by
  have e1 : Val.toks (Node.identifier a) =
      [a] := rfl
  have e2 : Val.toks (Node.identifier a) =
      Val.toks a := by
    rw [e1]; try simp only [toksL_eq, toksO_eq, toksOL_eq, toksLO_eq, toksTR_eq, toList_eq]
    try rfl
  unfold Good
  rw [e2]
  try simp only [List.mem_append, or_imp, forall_and, and_assoc]

theorem good_n_grouping (a : Node) : Good T (Node.grouping a) ↔ Good T a := by
  have e1 : Val.toks (Node.grouping a) =
      a.toks := rfl
  have e2 : Val.toks (Node.grouping a) =
      Val.toks a := by
    rw [e1]; try simp only [toksL_eq, toksO_eq, toksOL_eq, toksLO_eq, toksTR_eq, toList_eq]
    try rfl
  unfold Good
  rw [e2]
  try simp only [List.mem_append, or_imp, forall_and, and_assoc]

theorem good_n_array (a : Token) (b : List Node) (c : Token) : Good T (Node.array a b c) ↔ Good T a ∧ Good T b ∧ Good T c := by
  have e1 : Val.toks (Node.array a b c) =
      [a] ++ Node.toksL b ++ [c] := rfl
  have e2 : Val.toks (Node.array a b c) =
      Val.toks a ++ Val.toks b ++ Val.toks c := by
    rw [e1]; try simp only [toksL_eq, toksO_eq, toksOL_eq, toksLO_eq, toksTR_eq, toList_eq]
    try rfl
  unfold Good
  rw [e2]
  try simp only [List.mem_append, or_imp, forall_and, and_assoc]

theorem good_n_oldArray (a : Token) (b : Token) (c : List Node) (d : Token) : Good T (Node.oldArray a b c d) ↔ Good T a ∧ Good T b ∧ Good T c ∧ Good T d := by
  have e1 : Val.toks (Node.oldArray a b c d) =
      [a] ++ [b] ++ Node.toksL c ++ [d] := rfl
  have e2 : Val.toks (Node.oldArray a b c d) =
      Val.toks a ++ Val.toks b ++ Val.toks c ++ Val.toks d := by
    rw [e1]; try simp only [toksL_eq, toksO_eq, toksOL_eq, toksLO_eq, toksTR_eq, toList_eq]
    try rfl
  unfold Good
  rw [e2]
  try simp only [List.mem_append, or_imp, forall_and, and_assoc]

theorem good_n_arrayElement (a : Option Node) (b : Option Token) (c : Node) : Good T (Node.arrayElement a b c) ↔ Good T a ∧ Good T b ∧ Good T c := by
  have e1 : Val.toks (Node.arrayElement a b c) =
      Node.toksO a ++ b.toList ++ c.toks := rfl
  have e2 : Val.toks (Node.arrayElement a b c) =
      Val.toks a ++ Val.toks b ++ Val.toks c := by
    rw [e1]; try simp only [toksL_eq, toksO_eq, toksOL_eq, toksLO_eq, toksTR_eq, toList_eq]
    try rfl
  unfold Good
  rw [e2]
  try simp only [List.mem_append, or_imp, forall_and, and_assoc]

theorem good_n_list (a : Token) (b : Token) (c : List Node) (d : Token) : Good T (Node.list a b c d) ↔ Good T a ∧ Good T b ∧ Good T c ∧ Good T d := by
  have e1 : Val.toks (Node.list a b c d) =
      [a] ++ [b] ++ Node.toksL c ++ [d] := rfl
  have e2 : Val.toks (Node.list a b c d) =
      Val.toks a ++ Val.toks b ++ Val.toks c ++ Val.toks d := by
    rw [e1]; try simp only [toksL_eq, toksO_eq, toksOL_eq, toksLO_eq, toksTR_eq, toList_eq]
    try rfl
  unfold Good
  rw [e2]
  try simp only [List.mem_append, or_imp, forall_and, and_assoc]

theorem good_n_call (a : Node) (b : Token) (c : List Node) (d : Token) : Good T (Node.call a b c d) ↔ Good T a ∧ Good T b ∧ Good T c ∧ Good T d := by
  have e1 : Val.toks (Node.call a b c d) =
      a.toks ++ [b] ++ Node.toksL c ++ [d] := rfl
  have e2 : Val.toks (Node.call a b c d) =
      Val.toks a ++ Val.toks b ++ Val.toks c ++ Val.toks d := by
    rw [e1]; try simp only [toksL_eq, toksO_eq, toksOL_eq, toksLO_eq, toksTR_eq, toList_eq]
    try rfl
  unfold Good
  rw [e2]
  try simp only [List.mem_append, or_imp, forall_and, and_assoc]

theorem good_n_isset (a : Token) (b : Token) (c : List Node) (d : Token) : Good T (Node.isset a b c d) ↔ Good T a ∧ Good T b ∧ Good T c ∧ Good T d := by
  have e1 : Val.toks (Node.isset a b c d) =
      [a] ++ [b] ++ Node.toksL c ++ [d] := rfl
  have e2 : Val.toks (Node.isset a b c d) =
      Val.toks a ++ Val.toks b ++ Val.toks c ++ Val.toks d := by
    rw [e1]; try simp only [toksL_eq, toksO_eq, toksOL_eq, toksLO_eq, toksTR_eq, toList_eq]
    try rfl
  unfold Good
  rw [e2]
  try simp only [List.mem_append, or_imp, forall_and, and_assoc]

theorem good_n_emptyExpr (a : Token) (b : Token) (c : List Node) (d : Token) : Good T (Node.emptyExpr a b c d) ↔ Good T a ∧ Good T b ∧ Good T c ∧ Good T d := by
  have e1 : Val.toks (Node.emptyExpr a b c d) =
      [a] ++ [b] ++ Node.toksL c ++ [d] := rfl
  have e2 : Val.toks (Node.emptyExpr a b c d) =
      Val.toks a ++ Val.toks b ++ Val.toks c ++ Val.toks d := by
    rw [e1]; try simp only [toksL_eq, toksO_eq, toksOL_eq, toksLO_eq, toksTR_eq, toList_eq]
    try rfl
  unfold Good
  rw [e2]
  try simp only [List.mem_append, or_imp, forall_and, and_assoc]

theorem good_n_exitExpr (a : Token) (b : Option Token) (c : Option (List Node)) (d : Option Token) : Good T (Node.exitExpr a b c d) ↔ Good T a ∧ Good T b ∧ Good T c ∧ Good T d := by
  have e1 : Val.toks (Node.exitExpr a b c d) =
      [a] ++ b.toList ++ Node.toksOL c ++ d.toList := rfl
  have e2 : Val.toks (Node.exitExpr a b c d) =
      Val.toks a ++ Val.toks b ++ Val.toks c ++ Val.toks d := by
    rw [e1]; try simp only [toksL_eq, toksO_eq, toksOL_eq, toksLO_eq, toksTR_eq, toList_eq]
    try rfl
  unfold Good
  rw [e2]
  try simp only [List.mem_append, or_imp, forall_and, and_assoc]

theorem good_n_haltCompiler (a : Token) (b : Option Token) (c : Option (List Node)) (d : Option Token) : Good T (Node.haltCompiler a b c d) ↔ Good T a ∧ Good T b ∧ Good T c ∧ Good T d := by
  have e1 : Val.toks (Node.haltCompiler a b c d) =
      [a] ++ b.toList ++ Node.toksOL c ++ d.toList := rfl
  have e2 : Val.toks (Node.haltCompiler a b c d) =
      Val.toks a ++ Val.toks b ++ Val.toks c ++ Val.toks d := by
    rw [e1]; try simp only [toksL_eq, toksO_eq, toksOL_eq, toksLO_eq, toksTR_eq, toList_eq]
    try rfl
  unfold Good
  rw [e2]
  try simp only [List.mem_append, or_imp, forall_and, and_assoc]

theorem good_n_dieExpr (a : Token) (b : Option Token) (c : Option (List Node)) (d : Option Token) : Good T (Node.dieExpr a b c d) ↔ Good T a ∧ Good T b ∧ Good T c ∧ Good T d := by
  have e1 : Val.toks (Node.dieExpr a b c d) =
      [a] ++ b.toList ++ Node.toksOL c ++ d.toList := rfl
  have e2 : Val.toks (Node.dieExpr a b c d) =
      Val.toks a ++ Val.toks b ++ Val.toks c ++ Val.toks d := by
    rw [e1]; try simp only [toksL_eq, toksO_eq, toksOL_eq, toksLO_eq, toksTR_eq, toList_eq]
    try rfl
  unfold Good
  rw [e2]
  try simp only [List.mem_append, or_imp, forall_and, and_assoc]

theorem good_n_newExpr (a : Token) (b : Node) : Good T (Node.newExpr a b) ↔ Good T a ∧ Good T b := by
  have e1 : Val.toks (Node.newExpr a b) =
      [a] ++ b.toks := rfl
  have e2 : Val.toks (Node.newExpr a b) =
      Val.toks a ++ Val.toks b := by
    rw [e1]; try simp only [toksL_eq, toksO_eq, toksOL_eq, toksLO_eq, toksTR_eq, toList_eq]
    try rfl
  unfold Good
  rw [e2]
  try simp only [List.mem_append, or_imp, forall_and, and_assoc]

theorem good_n_cloneExpr (a : Token) (b : Node) : Good T (Node.cloneExpr a b) ↔ Good T a ∧ Good T b := by
  have e1 : Val.toks (Node.cloneExpr a b) =
      [a] ++ b.toks := rfl
  have e2 : Val.toks (Node.cloneExpr a b) =
      Val.toks a ++ Val.toks b := by
    rw [e1]; try simp only [toksL_eq, toksO_eq, toksOL_eq, toksLO_eq, toksTR_eq, toList_eq]
    try rfl
  unfold Good
  rw [e2]
  try simp only [List.mem_append, or_imp, forall_and, and_assoc]

theorem good_n_member (a : Node) (b : Token) (c : Option Token) (d : Node) (e : Option Token) : Good T (Node.member a b c d e) ↔ Good T a ∧ Good T b ∧ Good T c ∧ Good T d ∧ Good T e := by
  have e1 : Val.toks (Node.member a b c d e) =
      a.toks ++ [b] ++ c.toList ++ d.toks ++ e.toList := rfl
  have e2 : Val.toks (Node.member a b c d e) =
      Val.toks a ++ Val.toks b ++ Val.toks c ++ Val.toks d ++ Val.toks e := by
    rw [e1]; try simp only [toksL_eq, toksO_eq, toksOL_eq, toksLO_eq, toksTR_eq, toList_eq]
    try rfl
  unfold Good
  rw [e2]
  try simp only [List.mem_append, or_imp, forall_and, and_assoc]

theorem good_n_staticMember (a : Node) (b : Token) (c : Option Token) (d : Node) (e : Option Token) : Good T (Node.staticMember a b c d e) ↔ Good T a ∧ Good T b ∧ Good T c ∧ Good T d ∧ Good T e := by
  have e1 : Val.toks (Node.staticMember a b c d e) =
      a.toks ++ [b] ++ c.toList ++ d.toks ++ e.toList := rfl
  have e2 : Val.toks (Node.staticMember a b c d e) =
      Val.toks a ++ Val.toks b ++ Val.toks c ++ Val.toks d ++ Val.toks e := by
    rw [e1]; try simp only [toksL_eq, toksO_eq, toksOL_eq, toksLO_eq, toksTR_eq, toList_eq]
    try rfl
  unfold Good
  rw [e2]
  try simp only [List.mem_append, or_imp, forall_and, and_assoc]

theorem good_n_field (a : Node) (b : Token) (c : Option Node) (d : Token) : Good T (Node.field a b c d) ↔ Good T a ∧ Good T b ∧ Good T c ∧ Good T d := by
  have e1 : Val.toks (Node.field a b c d) =
      a.toks ++ [b] ++ Node.toksO c ++ [d] := rfl
  have e2 : Val.toks (Node.field a b c d) =
      Val.toks a ++ Val.toks b ++ Val.toks c ++ Val.toks d := by
    rw [e1]; try simp only [toksL_eq, toksO_eq, toksOL_eq, toksLO_eq, toksTR_eq, toList_eq]
    try rfl
  unfold Good
  rw [e2]
  try simp only [List.mem_append, or_imp, forall_and, and_assoc]

theorem good_n_matchExpr (a : Token) (b : Token) (c : Token) (d : Node) (e : Token) (f : List Node) (g : Token) : Good T (Node.matchExpr a b c d e f g) ↔ Good T a ∧ Good T b ∧ Good T c ∧ Good T d ∧ Good T e ∧ Good T f ∧ Good T g := by
  have e1 : Val.toks (Node.matchExpr a b c d e f g) =
      [a] ++ [b] ++ [c] ++ d.toks ++ [e] ++ Node.toksL f ++ [g] := rfl
  have e2 : Val.toks (Node.matchExpr a b c d e f g) =
      Val.toks a ++ Val.toks b ++ Val.toks c ++ Val.toks d ++ Val.toks e ++ Val.toks f ++ Val.toks g := by
    rw [e1]; try simp only [toksL_eq, toksO_eq, toksOL_eq, toksLO_eq, toksTR_eq, toList_eq]
    try rfl
  unfold Good
  rw [e2]
  try simp only [List.mem_append, or_imp, forall_and, and_assoc]

theorem good_n_matchArm (a : Option (List Node)) (b : Token) (c : Node) : Good T (Node.matchArm a b c) ↔ Good T a ∧ Good T b ∧ Good T c := by
  have e1 : Val.toks (Node.matchArm a b c) =
      Node.toksOL a ++ [b] ++ c.toks := rfl
  have e2 : Val.toks (Node.matchArm a b c) =
      Val.toks a ++ Val.toks b ++ Val.toks c := by
    rw [e1]; try simp only [toksL_eq, toksO_eq, toksOL_eq, toksLO_eq, toksTR_eq, toList_eq]
    try rfl
  unfold Good
  rw [e2]
  try simp only [List.mem_append, or_imp, forall_and, and_assoc]

theorem good_n_staticExpr (a : Token) (b : List Node) : Good T (Node.staticExpr a b) ↔ Good T a ∧ Good T b := by
  have e1 : Val.toks (Node.staticExpr a b) =
      [a] ++ Node.toksL b := rfl
  have e2 : Val.toks (Node.staticExpr a b) =
      Val.toks a ++ Val.toks b := by
    rw [e1]; try simp only [toksL_eq, toksO_eq, toksOL_eq, toksLO_eq, toksTR_eq, toList_eq]
    try rfl
  unfold Good
  rw [e2]
  try simp only [List.mem_append, or_imp, forall_and, and_assoc]

theorem good_n_closure (a : Option Token) (b : Option Token) (c : Token) (d : Token) (e : Option (List Node)) (f : Token) (g : Option (List Node)) (h : Option Node) (i : Node) (j : List Node) : Good T (Node.closure a b c d e f g h i j) ↔ Good T a ∧ Good T b ∧ Good T c ∧ Good T d ∧ Good T e ∧ Good T f ∧ Good T g ∧ Good T h ∧ Good T i ∧ Good T j := by
  have e1 : Val.toks (Node.closure a b c d e f g h i j) =
      a.toList ++ b.toList ++ [c] ++ [d] ++ Node.toksOL e ++ [f] ++ Node.toksOL g ++ Node.toksO h ++ i.toks ++ Node.toksL j := rfl
  have e2 : Val.toks (Node.closure a b c d e f g h i j) =
      Val.toks a ++ Val.toks b ++ Val.toks c ++ Val.toks d ++ Val.toks e ++ Val.toks f ++ Val.toks g ++ Val.toks h ++ Val.toks i ++ Val.toks j := by
    rw [e1]; try simp only [toksL_eq, toksO_eq, toksOL_eq, toksLO_eq, toksTR_eq, toList_eq]
    try rfl
  unfold Good
  rw [e2]
  try simp only [List.mem_append, or_imp, forall_and, and_assoc]

theorem good_n_arrowFunction (a : Option Token) (b : Option Token) (c : Token) (d : Token) (e : Option (List Node)) (f : Token) (g : Token) (h : Option Node) (i : Node) (j : List Node) : Good T (Node.arrowFunction a b c d e f g h i j) ↔ Good T a ∧ Good T b ∧ Good T c ∧ Good T d ∧ Good T e ∧ Good T f ∧ Good T g ∧ Good T h ∧ Good T i ∧ Good T j := by
  have e1 : Val.toks (Node.arrowFunction a b c d e f g h i j) =
      a.toList ++ b.toList ++ [c] ++ [d] ++ Node.toksOL e ++ [f] ++ [g] ++ Node.toksO h ++ i.toks ++ Node.toksL j := rfl
  have e2 : Val.toks (Node.arrowFunction a b c d e f g h i j) =
      Val.toks a ++ Val.toks b ++ Val.toks c ++ Val.toks d ++ Val.toks e ++ Val.toks f ++ Val.toks g ++ Val.toks h ++ Val.toks i ++ Val.toks j := by
    rw [e1]; try simp only [toksL_eq, toksO_eq, toksOL_eq, toksLO_eq, toksTR_eq, toList_eq]
    try rfl
  unfold Good
  rw [e2]
  try simp only [List.mem_append, or_imp, forall_and, and_assoc]

theorem good_n_namedParameter (a : Token) (b : Token) (c : Node) : Good T (Node.namedParameter a b c) ↔ Good T a ∧ Good T b ∧ Good T c := by
  have e1 : Val.toks (Node.namedParameter a b c) =
      [a] ++ [b] ++ c.toks := rfl
  have e2 : Val.toks (Node.namedParameter a b c) =
      Val.toks a ++ Val.toks b ++ Val.toks c := by
    rw [e1]; try simp only [toksL_eq, toksO_eq, toksOL_eq, toksLO_eq, toksTR_eq, toList_eq]
    try rfl
  unfold Good
  rw [e2]
  try simp only [List.mem_append, or_imp, forall_and, and_assoc]

theorem good_n_functionArgument (a : Option Node) (b : Token) (c : Option Token) (d : Option Node) (e : Option Token) (f : Option Token) (g : Option Node) (h : List Node) : Good T (Node.functionArgument a b c d e f g h) ↔ Good T a ∧ Good T b ∧ Good T c ∧ Good T d ∧ Good T e ∧ Good T f ∧ Good T g ∧ Good T h := by
  have e1 : Val.toks (Node.functionArgument a b c d e f g h) =
      Node.toksO a ++ [b] ++ c.toList ++ Node.toksO d ++ e.toList ++ f.toList ++ Node.toksO g ++ Node.toksL h := rfl
  have e2 : Val.toks (Node.functionArgument a b c d e f g h) =
      Val.toks a ++ Val.toks b ++ Val.toks c ++ Val.toks d ++ Val.toks e ++ Val.toks f ++ Val.toks g ++ Val.toks h := by
    rw [e1]; try simp only [toksL_eq, toksO_eq, toksOL_eq, toksLO_eq, toksTR_eq, toList_eq]
    try rfl
  unfold Good
  rw [e2]
  try simp only [List.mem_append, or_imp, forall_and, and_assoc]

theorem good_n_dataType (a : Option Token) (b : List Node) : Good T (Node.dataType a b) ↔ Good T a ∧ Good T b := by
  have e1 : Val.toks (Node.dataType a b) =
      a.toList ++ Node.toksL b := rfl
  have e2 : Val.toks (Node.dataType a b) =
      Val.toks a ++ Val.toks b := by
    rw [e1]; try simp only [toksL_eq, toksO_eq, toksOL_eq, toksLO_eq, toksTR_eq, toList_eq]
    try rfl
  unfold Good
  rw [e2]
  try simp only [List.mem_append, or_imp, forall_and, and_assoc]

theorem good_n_returnType (a : Token) (b : Node) : Good T (Node.returnType a b) ↔ Good T a ∧ Good T b := by
  have e1 : Val.toks (Node.returnType a b) =
      [a] ++ b.toks := rfl
  have e2 : Val.toks (Node.returnType a b) =
      Val.toks a ++ Val.toks b := by
    rw [e1]; try simp only [toksL_eq, toksO_eq, toksOL_eq, toksLO_eq, toksTR_eq, toList_eq]
    try rfl
  unfold Good
  rw [e2]
  try simp only [List.mem_append, or_imp, forall_and, and_assoc]

theorem good_n_typeRef (a : TypeRef) : Good T (Node.typeRef a) ↔ Good T a := by
  have e1 : Val.toks (Node.typeRef a) =
      a.kind := rfl
  have e2 : Val.toks (Node.typeRef a) =
      Val.toks a := by
    rw [e1]; try simp only [toksL_eq, toksO_eq, toksOL_eq, toksLO_eq, toksTR_eq, toList_eq]
    try rfl
  unfold Good
  rw [e2]
  try simp only [List.mem_append, or_imp, forall_and, and_assoc]

theorem good_n_anonClass (a : Token) (b : Option (List Node)) (c : Option Node) (d : Option (List Node)) (e : Node) (f : List Node) : Good T (Node.anonClass a b c d e f) ↔ Good T a ∧ Good T b ∧ Good T c ∧ Good T d ∧ Good T e ∧ Good T f := by
  have e1 : Val.toks (Node.anonClass a b c d e f) =
      [a] ++ Node.toksOL b ++ Node.toksO c ++ Node.toksOL d ++ e.toks ++ Node.toksL f := rfl
  have e2 : Val.toks (Node.anonClass a b c d e f) =
      Val.toks a ++ Val.toks b ++ Val.toks c ++ Val.toks d ++ Val.toks e ++ Val.toks f := by
    rw [e1]; try simp only [toksL_eq, toksO_eq, toksOL_eq, toksLO_eq, toksTR_eq, toList_eq]
    try rfl
  unfold Good
  rw [e2]
  try simp only [List.mem_append, or_imp, forall_and, and_assoc]

theorem good_n_yieldExpr (a : Token) (b : Option Node) : Good T (Node.yieldExpr a b) ↔ Good T a ∧ Good T b := by
  have e1 : Val.toks (Node.yieldExpr a b) =
      [a] ++ Node.toksO b := rfl
  have e2 : Val.toks (Node.yieldExpr a b) =
      Val.toks a ++ Val.toks b := by
    rw [e1]; try simp only [toksL_eq, toksO_eq, toksOL_eq, toksLO_eq, toksTR_eq, toList_eq]
    try rfl
  unfold Good
  rw [e2]
  try simp only [List.mem_append, or_imp, forall_and, and_assoc]

theorem good_n_yieldFrom (a : Token) (b : Node) : Good T (Node.yieldFrom a b) ↔ Good T a ∧ Good T b := by
  have e1 : Val.toks (Node.yieldFrom a b) =
      [a] ++ b.toks := rfl
  have e2 : Val.toks (Node.yieldFrom a b) =
      Val.toks a ++ Val.toks b := by
    rw [e1]; try simp only [toksL_eq, toksO_eq, toksOL_eq, toksLO_eq, toksTR_eq, toList_eq]
    try rfl
  unfold Good
  rw [e2]
  try simp only [List.mem_append, or_imp, forall_and, and_assoc]

theorem good_n_fileInclude (a : Token) (b : Node) : Good T (Node.fileInclude a b) ↔ Good T a ∧ Good T b := by
  have e1 : Val.toks (Node.fileInclude a b) =
      [a] ++ b.toks := rfl
  have e2 : Val.toks (Node.fileInclude a b) =
      Val.toks a ++ Val.toks b := by
    rw [e1]; try simp only [toksL_eq, toksO_eq, toksOL_eq, toksLO_eq, toksTR_eq, toList_eq]
    try rfl
  unfold Good
  rw [e2]
  try simp only [List.mem_append, or_imp, forall_and, and_assoc]

theorem good_n_useDeclaration (a : Option Token) (b : Node) (c : Option Token) (d : Option Token) : Good T (Node.useDeclaration a b c d) ↔ Good T a ∧ Good T b ∧ Good T c ∧ Good T d := by
  have e1 : Val.toks (Node.useDeclaration a b c d) =
      a.toList ++ b.toks ++ c.toList ++ d.toList := rfl
  have e2 : Val.toks (Node.useDeclaration a b c d) =
      Val.toks a ++ Val.toks b ++ Val.toks c ++ Val.toks d := by
    rw [e1]; try simp only [toksL_eq, toksO_eq, toksOL_eq, toksLO_eq, toksTR_eq, toList_eq]
    try rfl
  unfold Good
  rw [e2]
  try simp only [List.mem_append, or_imp, forall_and, and_assoc]

theorem good_n_useConst (a : Option Token) (b : Node) (c : Option Token) (d : Option Token) : Good T (Node.useConst a b c d) ↔ Good T a ∧ Good T b ∧ Good T c ∧ Good T d := by
  have e1 : Val.toks (Node.useConst a b c d) =
      a.toList ++ b.toks ++ c.toList ++ d.toList := rfl
  have e2 : Val.toks (Node.useConst a b c d) =
      Val.toks a ++ Val.toks b ++ Val.toks c ++ Val.toks d := by
    rw [e1]; try simp only [toksL_eq, toksO_eq, toksOL_eq, toksLO_eq, toksTR_eq, toList_eq]
    try rfl
  unfold Good
  rw [e2]
  try simp only [List.mem_append, or_imp, forall_and, and_assoc]

theorem good_n_useFunction (a : Option Token) (b : Node) (c : Option Token) (d : Option Token) : Good T (Node.useFunction a b c d) ↔ Good T a ∧ Good T b ∧ Good T c ∧ Good T d := by
  have e1 : Val.toks (Node.useFunction a b c d) =
      a.toList ++ b.toks ++ c.toList ++ d.toList := rfl
  have e2 : Val.toks (Node.useFunction a b c d) =
      Val.toks a ++ Val.toks b ++ Val.toks c ++ Val.toks d := by
    rw [e1]; try simp only [toksL_eq, toksO_eq, toksOL_eq, toksLO_eq, toksTR_eq, toList_eq]
    try rfl
  unfold Good
  rw [e2]
  try simp only [List.mem_append, or_imp, forall_and, and_assoc]

theorem good_n_groupedUse (a : Token) (b : Node) (c : Token) (d : List Node) (e : Token) : Good T (Node.groupedUse a b c d e) ↔ Good T a ∧ Good T b ∧ Good T c ∧ Good T d ∧ Good T e := by
  have e1 : Val.toks (Node.groupedUse a b c d e) =
      [a] ++ b.toks ++ [c] ++ Node.toksL d ++ [e] := rfl
  have e2 : Val.toks (Node.groupedUse a b c d e) =
      Val.toks a ++ Val.toks b ++ Val.toks c ++ Val.toks d ++ Val.toks e := by
    rw [e1]; try simp only [toksL_eq, toksO_eq, toksOL_eq, toksLO_eq, toksTR_eq, toList_eq]
    try rfl
  unfold Good
  rw [e2]
  try simp only [List.mem_append, or_imp, forall_and, and_assoc]

theorem good_n_expressionStatement (a : Node) : Good T (Node.expressionStatement a) ↔ Good T a := by
  have e1 : Val.toks (Node.expressionStatement a) =
      a.toks := rfl
  have e2 : Val.toks (Node.expressionStatement a) =
      Val.toks a := by
    rw [e1]; try simp only [toksL_eq, toksO_eq, toksOL_eq, toksLO_eq, toksTR_eq, toList_eq]
    try rfl
  unfold Good
  rw [e2]
  try simp only [List.mem_append, or_imp, forall_and, and_assoc]

theorem good_n_echoStatement (a : Token) (b : List Node) : Good T (Node.echoStatement a b) ↔ Good T a ∧ Good T b := by
  have e1 : Val.toks (Node.echoStatement a b) =
      [a] ++ Node.toksL b := rfl
  have e2 : Val.toks (Node.echoStatement a b) =
      Val.toks a ++ Val.toks b := by
    rw [e1]; try simp only [toksL_eq, toksO_eq, toksOL_eq, toksLO_eq, toksTR_eq, toList_eq]
    try rfl
  unfold Good
  rw [e2]
  try simp only [List.mem_append, or_imp, forall_and, and_assoc]

theorem good_n_constStatement (a : Token) (b : List Node) : Good T (Node.constStatement a b) ↔ Good T a ∧ Good T b := by
  have e1 : Val.toks (Node.constStatement a b) =
      [a] ++ Node.toksL b := rfl
  have e2 : Val.toks (Node.constStatement a b) =
      Val.toks a ++ Val.toks b := by
    rw [e1]; try simp only [toksL_eq, toksO_eq, toksOL_eq, toksLO_eq, toksTR_eq, toList_eq]
    try rfl
  unfold Good
  rw [e2]
  try simp only [List.mem_append, or_imp, forall_and, and_assoc]

theorem good_n_printStatement (a : Token) (b : List Node) : Good T (Node.printStatement a b) ↔ Good T a ∧ Good T b := by
  have e1 : Val.toks (Node.printStatement a b) =
      [a] ++ Node.toksL b := rfl
  have e2 : Val.toks (Node.printStatement a b) =
      Val.toks a ++ Val.toks b := by
    rw [e1]; try simp only [toksL_eq, toksO_eq, toksOL_eq, toksLO_eq, toksTR_eq, toList_eq]
    try rfl
  unfold Good
  rw [e2]
  try simp only [List.mem_append, or_imp, forall_and, and_assoc]

theorem good_n_gotoStatement (a : Token) (b : Token) : Good T (Node.gotoStatement a b) ↔ Good T a ∧ Good T b := by
  have e1 : Val.toks (Node.gotoStatement a b) =
      [a] ++ [b] := rfl
  have e2 : Val.toks (Node.gotoStatement a b) =
      Val.toks a ++ Val.toks b := by
    rw [e1]; try simp only [toksL_eq, toksO_eq, toksOL_eq, toksLO_eq, toksTR_eq, toList_eq]
    try rfl
  unfold Good
  rw [e2]
  try simp only [List.mem_append, or_imp, forall_and, and_assoc]

theorem good_n_labelStatement (a : Token) (b : Token) : Good T (Node.labelStatement a b) ↔ Good T a ∧ Good T b := by
  have e1 : Val.toks (Node.labelStatement a b) =
      [a] ++ [b] := rfl
  have e2 : Val.toks (Node.labelStatement a b) =
      Val.toks a ++ Val.toks b := by
    rw [e1]; try simp only [toksL_eq, toksO_eq, toksOL_eq, toksLO_eq, toksTR_eq, toList_eq]
    try rfl
  unfold Good
  rw [e2]
  try simp only [List.mem_append, or_imp, forall_and, and_assoc]

theorem good_n_throwStatement (a : Token) (b : Node) : Good T (Node.throwStatement a b) ↔ Good T a ∧ Good T b := by
  have e1 : Val.toks (Node.throwStatement a b) =
      [a] ++ b.toks := rfl
  have e2 : Val.toks (Node.throwStatement a b) =
      Val.toks a ++ Val.toks b := by
    rw [e1]; try simp only [toksL_eq, toksO_eq, toksOL_eq, toksLO_eq, toksTR_eq, toList_eq]
    try rfl
  unfold Good
  rw [e2]
  try simp only [List.mem_append, or_imp, forall_and, and_assoc]

theorem good_n_declareStatement (a : Token) (b : Token) (c : Token) (d : Token) (e : Token) (f : Token) : Good T (Node.declareStatement a b c d e f) ↔ Good T a ∧ Good T b ∧ Good T c ∧ Good T d ∧ Good T e ∧ Good T f := by
  have e1 : Val.toks (Node.declareStatement a b c d e f) =
      [a] ++ [b] ++ [c] ++ [d] ++ [e] ++ [f] := rfl
  have e2 : Val.toks (Node.declareStatement a b c d e f) =
      Val.toks a ++ Val.toks b ++ Val.toks c ++ Val.toks d ++ Val.toks e ++ Val.toks f := by
    rw [e1]; try simp only [toksL_eq, toksO_eq, toksOL_eq, toksLO_eq, toksTR_eq, toList_eq]
    try rfl
  unfold Good
  rw [e2]
  try simp only [List.mem_append, or_imp, forall_and, and_assoc]

theorem good_n_defineStatement (a : Node) (b : Node) (c : Token) (d : Token) (e : Token) (f : Option Token) : Good T (Node.defineStatement a b c d e f) ↔ Good T a ∧ Good T b ∧ Good T c ∧ Good T d ∧ Good T e ∧ Good T f := by
  have e1 : Val.toks (Node.defineStatement a b c d e f) =
      a.toks ++ b.toks ++ [c] ++ [d] ++ [e] ++ f.toList := rfl
  have e2 : Val.toks (Node.defineStatement a b c d e f) =
      Val.toks a ++ Val.toks b ++ Val.toks c ++ Val.toks d ++ Val.toks e ++ Val.toks f := by
    rw [e1]; try simp only [toksL_eq, toksO_eq, toksOL_eq, toksLO_eq, toksTR_eq, toList_eq]
    try rfl
  unfold Good
  rw [e2]
  try simp only [List.mem_append, or_imp, forall_and, and_assoc]

theorem good_n_unsetStatement (a : Token) (b : Token) (c : List Node) (d : Token) : Good T (Node.unsetStatement a b c d) ↔ Good T a ∧ Good T b ∧ Good T c ∧ Good T d := by
  have e1 : Val.toks (Node.unsetStatement a b c d) =
      [a] ++ [b] ++ Node.toksL c ++ [d] := rfl
  have e2 : Val.toks (Node.unsetStatement a b c d) =
      Val.toks a ++ Val.toks b ++ Val.toks c ++ Val.toks d := by
    rw [e1]; try simp only [toksL_eq, toksO_eq, toksOL_eq, toksLO_eq, toksTR_eq, toList_eq]
    try rfl
  unfold Good
  rw [e2]
  try simp only [List.mem_append, or_imp, forall_and, and_assoc]

theorem good_n_dieStatement (a : Token) (b : Token) (c : Option Node) (d : Token) : Good T (Node.dieStatement a b c d) ↔ Good T a ∧ Good T b ∧ Good T c ∧ Good T d := by
  have e1 : Val.toks (Node.dieStatement a b c d) =
      [a] ++ [b] ++ Node.toksO c ++ [d] := rfl
  have e2 : Val.toks (Node.dieStatement a b c d) =
      Val.toks a ++ Val.toks b ++ Val.toks c ++ Val.toks d := by
    rw [e1]; try simp only [toksL_eq, toksO_eq, toksOL_eq, toksLO_eq, toksTR_eq, toList_eq]
    try rfl
  unfold Good
  rw [e2]
  try simp only [List.mem_append, or_imp, forall_and, and_assoc]

theorem good_n_returnStatement (a : Token) (b : Option Node) : Good T (Node.returnStatement a b) ↔ Good T a ∧ Good T b := by
  have e1 : Val.toks (Node.returnStatement a b) =
      [a] ++ Node.toksO b := rfl
  have e2 : Val.toks (Node.returnStatement a b) =
      Val.toks a ++ Val.toks b := by
    rw [e1]; try simp only [toksL_eq, toksO_eq, toksOL_eq, toksLO_eq, toksTR_eq, toList_eq]
    try rfl
  unfold Good
  rw [e2]
  try simp only [List.mem_append, or_imp, forall_and, and_assoc]

theorem good_n_namespaceStatement (a : Token) (b : Node) : Good T (Node.namespaceStatement a b) ↔ Good T a ∧ Good T b := by
  have e1 : Val.toks (Node.namespaceStatement a b) =
      [a] ++ b.toks := rfl
  have e2 : Val.toks (Node.namespaceStatement a b) =
      Val.toks a ++ Val.toks b := by
    rw [e1]; try simp only [toksL_eq, toksO_eq, toksOL_eq, toksLO_eq, toksTR_eq, toList_eq]
    try rfl
  unfold Good
  rw [e2]
  try simp only [List.mem_append, or_imp, forall_and, and_assoc]

theorem good_n_namespaceBlock (a : Token) (b : Option Node) (c : Node) : Good T (Node.namespaceBlock a b c) ↔ Good T a ∧ Good T b ∧ Good T c := by
  have e1 : Val.toks (Node.namespaceBlock a b c) =
      [a] ++ Node.toksO b ++ c.toks := rfl
  have e2 : Val.toks (Node.namespaceBlock a b c) =
      Val.toks a ++ Val.toks b ++ Val.toks c := by
    rw [e1]; try simp only [toksL_eq, toksO_eq, toksOL_eq, toksLO_eq, toksTR_eq, toList_eq]
    try rfl
  unfold Good
  rw [e2]
  try simp only [List.mem_append, or_imp, forall_and, and_assoc]

theorem good_n_useStatement (a : Token) (b : List Node) : Good T (Node.useStatement a b) ↔ Good T a ∧ Good T b := by
  have e1 : Val.toks (Node.useStatement a b) =
      [a] ++ Node.toksL b := rfl
  have e2 : Val.toks (Node.useStatement a b) =
      Val.toks a ++ Val.toks b := by
    rw [e1]; try simp only [toksL_eq, toksO_eq, toksOL_eq, toksLO_eq, toksTR_eq, toList_eq]
    try rfl
  unfold Good
  rw [e2]
  try simp only [List.mem_append, or_imp, forall_and, and_assoc]

theorem good_n_useFunctionStatement (a : Token) (b : List Node) : Good T (Node.useFunctionStatement a b) ↔ Good T a ∧ Good T b := by
  have e1 : Val.toks (Node.useFunctionStatement a b) =
      [a] ++ Node.toksL b := rfl
  have e2 : Val.toks (Node.useFunctionStatement a b) =
      Val.toks a ++ Val.toks b := by
    rw [e1]; try simp only [toksL_eq, toksO_eq, toksOL_eq, toksLO_eq, toksTR_eq, toList_eq]
    try rfl
  unfold Good
  rw [e2]
  try simp only [List.mem_append, or_imp, forall_and, and_assoc]

theorem good_n_useConstStatement (a : Token) (b : List Node) : Good T (Node.useConstStatement a b) ↔ Good T a ∧ Good T b := by
  have e1 : Val.toks (Node.useConstStatement a b) =
      [a] ++ Node.toksL b := rfl
  have e2 : Val.toks (Node.useConstStatement a b) =
      Val.toks a ++ Val.toks b := by
    rw [e1]; try simp only [toksL_eq, toksO_eq, toksOL_eq, toksLO_eq, toksTR_eq, toList_eq]
    try rfl
  unfold Good
  rw [e2]
  try simp only [List.mem_append, or_imp, forall_and, and_assoc]

theorem good_n_useTraitStatement (a : Token) (b : List Node) : Good T (Node.useTraitStatement a b) ↔ Good T a ∧ Good T b := by
  have e1 : Val.toks (Node.useTraitStatement a b) =
      [a] ++ Node.toksL b := rfl
  have e2 : Val.toks (Node.useTraitStatement a b) =
      Val.toks a ++ Val.toks b := by
    rw [e1]; try simp only [toksL_eq, toksO_eq, toksOL_eq, toksLO_eq, toksTR_eq, toList_eq]
    try rfl
  unfold Good
  rw [e2]
  try simp only [List.mem_append, or_imp, forall_and, and_assoc]

theorem good_n_useTrait (a : Node) : Good T (Node.useTrait a) ↔ Good T a := by
  have e1 : Val.toks (Node.useTrait a) =
      a.toks := rfl
  have e2 : Val.toks (Node.useTrait a) =
      Val.toks a := by
    rw [e1]; try simp only [toksL_eq, toksO_eq, toksOL_eq, toksLO_eq, toksTR_eq, toList_eq]
    try rfl
  unfold Good
  rw [e2]
  try simp only [List.mem_append, or_imp, forall_and, and_assoc]

theorem good_n_useTraitAlterationBlock (a : List Node) (b : Token) (c : List Node) (d : Token) : Good T (Node.useTraitAlterationBlock a b c d) ↔ Good T a ∧ Good T b ∧ Good T c ∧ Good T d := by
  have e1 : Val.toks (Node.useTraitAlterationBlock a b c d) =
      Node.toksL a ++ [b] ++ Node.toksL c ++ [d] := rfl
  have e2 : Val.toks (Node.useTraitAlterationBlock a b c d) =
      Val.toks a ++ Val.toks b ++ Val.toks c ++ Val.toks d := by
    rw [e1]; try simp only [toksL_eq, toksO_eq, toksOL_eq, toksLO_eq, toksTR_eq, toList_eq]
    try rfl
  unfold Good
  rw [e2]
  try simp only [List.mem_append, or_imp, forall_and, and_assoc]

theorem good_n_useTraitInsteadOf (a : Option Node) (b : Option Token) (c : Node) (d : Token) (e : List Node) : Good T (Node.useTraitInsteadOf a b c d e) ↔ Good T a ∧ Good T b ∧ Good T c ∧ Good T d ∧ Good T e := by
  have e1 : Val.toks (Node.useTraitInsteadOf a b c d e) =
      Node.toksO a ++ b.toList ++ c.toks ++ [d] ++ Node.toksL e := rfl
  have e2 : Val.toks (Node.useTraitInsteadOf a b c d e) =
      Val.toks a ++ Val.toks b ++ Val.toks c ++ Val.toks d ++ Val.toks e := by
    rw [e1]; try simp only [toksL_eq, toksO_eq, toksOL_eq, toksLO_eq, toksTR_eq, toList_eq]
    try rfl
  unfold Good
  rw [e2]
  try simp only [List.mem_append, or_imp, forall_and, and_assoc]

theorem good_n_useTraitAs (a : Option Node) (b : Option Token) (c : Node) (d : Token) (e : Option Token) (f : Option Token) : Good T (Node.useTraitAs a b c d e f) ↔ Good T a ∧ Good T b ∧ Good T c ∧ Good T d ∧ Good T e ∧ Good T f := by
  have e1 : Val.toks (Node.useTraitAs a b c d e f) =
      Node.toksO a ++ b.toList ++ c.toks ++ [d] ++ e.toList ++ f.toList := rfl
  have e2 : Val.toks (Node.useTraitAs a b c d e f) =
      Val.toks a ++ Val.toks b ++ Val.toks c ++ Val.toks d ++ Val.toks e ++ Val.toks f := by
    rw [e1]; try simp only [toksL_eq, toksO_eq, toksOL_eq, toksLO_eq, toksTR_eq, toList_eq]
    try rfl
  unfold Good
  rw [e2]
  try simp only [List.mem_append, or_imp, forall_and, and_assoc]

theorem good_n_classStatement (a : Token) (b : Token) (c : Option Token) (d : Option Token) (e : Option (List Node)) (f : Option Node) (g : Node) (h : Option Node) (i : List Node) : Good T (Node.classStatement a b c d e f g h i) ↔ Good T a ∧ Good T b ∧ Good T c ∧ Good T d ∧ Good T e ∧ Good T f ∧ Good T g ∧ Good T h ∧ Good T i := by
  have e1 : Val.toks (Node.classStatement a b c d e f g h i) =
      [a] ++ [b] ++ c.toList ++ d.toList ++ Node.toksOL e ++ Node.toksO f ++ g.toks ++ Node.toksO h ++ Node.toksL i := rfl
  have e2 : Val.toks (Node.classStatement a b c d e f g h i) =
      Val.toks a ++ Val.toks b ++ Val.toks c ++ Val.toks d ++ Val.toks e ++ Val.toks f ++ Val.toks g ++ Val.toks h ++ Val.toks i := by
    rw [e1]; try simp only [toksL_eq, toksO_eq, toksOL_eq, toksLO_eq, toksTR_eq, toList_eq]
    try rfl
  unfold Good
  rw [e2]
  try simp only [List.mem_append, or_imp, forall_and, and_assoc]

theorem good_n_traitStatement (a : Token) (b : Token) (c : Node) (d : Option Node) : Good T (Node.traitStatement a b c d) ↔ Good T a ∧ Good T b ∧ Good T c ∧ Good T d := by
  have e1 : Val.toks (Node.traitStatement a b c d) =
      [a] ++ [b] ++ c.toks ++ Node.toksO d := rfl
  have e2 : Val.toks (Node.traitStatement a b c d) =
      Val.toks a ++ Val.toks b ++ Val.toks c ++ Val.toks d := by
    rw [e1]; try simp only [toksL_eq, toksO_eq, toksOL_eq, toksLO_eq, toksTR_eq, toList_eq]
    try rfl
  unfold Good
  rw [e2]
  try simp only [List.mem_append, or_imp, forall_and, and_assoc]

theorem good_n_interface (a : Token) (b : Token) (c : Option (List Node)) (d : Node) (e : Option Node) : Good T (Node.interface a b c d e) ↔ Good T a ∧ Good T b ∧ Good T c ∧ Good T d ∧ Good T e := by
  have e1 : Val.toks (Node.interface a b c d e) =
      [a] ++ [b] ++ Node.toksOL c ++ d.toks ++ Node.toksO e := rfl
  have e2 : Val.toks (Node.interface a b c d e) =
      Val.toks a ++ Val.toks b ++ Val.toks c ++ Val.toks d ++ Val.toks e := by
    rw [e1]; try simp only [toksL_eq, toksO_eq, toksOL_eq, toksLO_eq, toksTR_eq, toList_eq]
    try rfl
  unfold Good
  rw [e2]
  try simp only [List.mem_append, or_imp, forall_and, and_assoc]

theorem good_n_classConstantDefinitionStatement (a : Token) (b : List Node) (c : Option Node) (d : Option Token) (e : List Node) : Good T (Node.classConstantDefinitionStatement a b c d e) ↔ Good T a ∧ Good T b ∧ Good T c ∧ Good T d ∧ Good T e := by
  have e1 : Val.toks (Node.classConstantDefinitionStatement a b c d e) =
      [a] ++ Node.toksL b ++ Node.toksO c ++ d.toList ++ Node.toksL e := rfl
  have e2 : Val.toks (Node.classConstantDefinitionStatement a b c d e) =
      Val.toks a ++ Val.toks b ++ Val.toks c ++ Val.toks d ++ Val.toks e := by
    rw [e1]; try simp only [toksL_eq, toksO_eq, toksOL_eq, toksLO_eq, toksTR_eq, toList_eq]
    try rfl
  unfold Good
  rw [e2]
  try simp only [List.mem_append, or_imp, forall_and, and_assoc]

theorem good_n_classConstant (a : Option Token) (b : Token) (c : Node) : Good T (Node.classConstant a b c) ↔ Good T a ∧ Good T b ∧ Good T c := by
  have e1 : Val.toks (Node.classConstant a b c) =
      a.toList ++ [b] ++ c.toks := rfl
  have e2 : Val.toks (Node.classConstant a b c) =
      Val.toks a ++ Val.toks b ++ Val.toks c := by
    rw [e1]; try simp only [toksL_eq, toksO_eq, toksOL_eq, toksLO_eq, toksTR_eq, toList_eq]
    try rfl
  unfold Good
  rw [e2]
  try simp only [List.mem_append, or_imp, forall_and, and_assoc]

theorem good_n_property (a : Token) (b : Option Node) : Good T (Node.property a b) ↔ Good T a ∧ Good T b := by
  have e1 : Val.toks (Node.property a b) =
      [a] ++ Node.toksO b := rfl
  have e2 : Val.toks (Node.property a b) =
      Val.toks a ++ Val.toks b := by
    rw [e1]; try simp only [toksL_eq, toksO_eq, toksOL_eq, toksLO_eq, toksTR_eq, toList_eq]
    try rfl
  unfold Good
  rw [e2]
  try simp only [List.mem_append, or_imp, forall_and, and_assoc]

theorem good_n_propertyDefinitionStatement (a : List Node) (b : Option Node) (c : Option Token) (d : Option Node) (e : Option Token) (f : Option Token) (g : List Node) : Good T (Node.propertyDefinitionStatement a b c d e f g) ↔ Good T a ∧ Good T b ∧ Good T c ∧ Good T d ∧ Good T e ∧ Good T f ∧ Good T g := by
  have e1 : Val.toks (Node.propertyDefinitionStatement a b c d e f g) =
      Node.toksL a ++ Node.toksO b ++ c.toList ++ Node.toksO d ++ e.toList ++ f.toList ++ Node.toksL g := rfl
  have e2 : Val.toks (Node.propertyDefinitionStatement a b c d e f g) =
      Val.toks a ++ Val.toks b ++ Val.toks c ++ Val.toks d ++ Val.toks e ++ Val.toks f ++ Val.toks g := by
    rw [e1]; try simp only [toksL_eq, toksO_eq, toksOL_eq, toksLO_eq, toksTR_eq, toList_eq]
    try rfl
  unfold Good
  rw [e2]
  try simp only [List.mem_append, or_imp, forall_and, and_assoc]

theorem good_n_methodDefinitionStatement (a : Token) (b : Option Token) (c : Option Token) (d : Token) (e : Option Token) (f : Option Token) (g : Node) (h : Option Token) (i : Option Node) (j : List Node) : Good T (Node.methodDefinitionStatement a b c d e f g h i j) ↔ Good T a ∧ Good T b ∧ Good T c ∧ Good T d ∧ Good T e ∧ Good T f ∧ Good T g ∧ Good T h ∧ Good T i ∧ Good T j := by
  have e1 : Val.toks (Node.methodDefinitionStatement a b c d e f g h i j) =
      [a] ++ b.toList ++ c.toList ++ [d] ++ e.toList ++ f.toList ++ g.toks ++ h.toList ++ Node.toksO i ++ Node.toksL j := rfl
  have e2 : Val.toks (Node.methodDefinitionStatement a b c d e f g h i j) =
      Val.toks a ++ Val.toks b ++ Val.toks c ++ Val.toks d ++ Val.toks e ++ Val.toks f ++ Val.toks g ++ Val.toks h ++ Val.toks i ++ Val.toks j := by
    rw [e1]; try simp only [toksL_eq, toksO_eq, toksOL_eq, toksLO_eq, toksTR_eq, toList_eq]
    try rfl
  unfold Good
  rw [e2]
  try simp only [List.mem_append, or_imp, forall_and, and_assoc]

theorem good_n_functionDefinitionStatement (a : Token) (b : Option (List Node)) (c : Token) (d : Option Node) (e : Option Node) (f : Option Node) : Good T (Node.functionDefinitionStatement a b c d e f) ↔ Good T a ∧ Good T b ∧ Good T c ∧ Good T d ∧ Good T e ∧ Good T f := by
  have e1 : Val.toks (Node.functionDefinitionStatement a b c d e f) =
      [a] ++ Node.toksOL b ++ [c] ++ Node.toksO d ++ Node.toksO e ++ Node.toksO f := rfl
  have e2 : Val.toks (Node.functionDefinitionStatement a b c d e f) =
      Val.toks a ++ Val.toks b ++ Val.toks c ++ Val.toks d ++ Val.toks e ++ Val.toks f := by
    rw [e1]; try simp only [toksL_eq, toksO_eq, toksOL_eq, toksLO_eq, toksTR_eq, toList_eq]
    try rfl
  unfold Good
  rw [e2]
  try simp only [List.mem_append, or_imp, forall_and, and_assoc]

theorem good_n_namedFunctionDefinitionStatement (a : Token) (b : Option Token) (c : Token) (d : Node) (e : List Node) : Good T (Node.namedFunctionDefinitionStatement a b c d e) ↔ Good T a ∧ Good T b ∧ Good T c ∧ Good T d ∧ Good T e := by
  have e1 : Val.toks (Node.namedFunctionDefinitionStatement a b c d e) =
      [a] ++ b.toList ++ [c] ++ d.toks ++ Node.toksL e := rfl
  have e2 : Val.toks (Node.namedFunctionDefinitionStatement a b c d e) =
      Val.toks a ++ Val.toks b ++ Val.toks c ++ Val.toks d ++ Val.toks e := by
    rw [e1]; try simp only [toksL_eq, toksO_eq, toksOL_eq, toksLO_eq, toksTR_eq, toList_eq]
    try rfl
  unfold Good
  rw [e2]
  try simp only [List.mem_append, or_imp, forall_and, and_assoc]

theorem good_n_whileStatement (a : Token) (b : Token) (c : Node) (d : Token) (e : Node) : Good T (Node.whileStatement a b c d e) ↔ Good T a ∧ Good T b ∧ Good T c ∧ Good T d ∧ Good T e := by
  have e1 : Val.toks (Node.whileStatement a b c d e) =
      [a] ++ [b] ++ c.toks ++ [d] ++ e.toks := rfl
  have e2 : Val.toks (Node.whileStatement a b c d e) =
      Val.toks a ++ Val.toks b ++ Val.toks c ++ Val.toks d ++ Val.toks e := by
    rw [e1]; try simp only [toksL_eq, toksO_eq, toksOL_eq, toksLO_eq, toksTR_eq, toList_eq]
    try rfl
  unfold Good
  rw [e2]
  try simp only [List.mem_append, or_imp, forall_and, and_assoc]

theorem good_n_doWhileStatement (a : Token) (b : Token) (c : Token) (d : Token) (e : Node) (f : Node) : Good T (Node.doWhileStatement a b c d e f) ↔ Good T a ∧ Good T b ∧ Good T c ∧ Good T d ∧ Good T e ∧ Good T f := by
  have e1 : Val.toks (Node.doWhileStatement a b c d e f) =
      [a] ++ [b] ++ [c] ++ [d] ++ e.toks ++ f.toks := rfl
  have e2 : Val.toks (Node.doWhileStatement a b c d e f) =
      Val.toks a ++ Val.toks b ++ Val.toks c ++ Val.toks d ++ Val.toks e ++ Val.toks f := by
    rw [e1]; try simp only [toksL_eq, toksO_eq, toksOL_eq, toksLO_eq, toksTR_eq, toList_eq]
    try rfl
  unfold Good
  rw [e2]
  try simp only [List.mem_append, or_imp, forall_and, and_assoc]

theorem good_n_forStatement (a : Token) (b : List Node) (c : List Node) (d : List Node) (e : Node) : Good T (Node.forStatement a b c d e) ↔ Good T a ∧ Good T b ∧ Good T c ∧ Good T d ∧ Good T e := by
  have e1 : Val.toks (Node.forStatement a b c d e) =
      [a] ++ Node.toksL b ++ Node.toksL c ++ Node.toksL d ++ e.toks := rfl
  have e2 : Val.toks (Node.forStatement a b c d e) =
      Val.toks a ++ Val.toks b ++ Val.toks c ++ Val.toks d ++ Val.toks e := by
    rw [e1]; try simp only [toksL_eq, toksO_eq, toksOL_eq, toksLO_eq, toksTR_eq, toList_eq]
    try rfl
  unfold Good
  rw [e2]
  try simp only [List.mem_append, or_imp, forall_and, and_assoc]

theorem good_n_forEachStatement (a : Token) (b : Token) (c : Node) (d : Token) (e : Node) (f : Token) (g : Node) : Good T (Node.forEachStatement a b c d e f g) ↔ Good T a ∧ Good T b ∧ Good T c ∧ Good T d ∧ Good T e ∧ Good T f ∧ Good T g := by
  have e1 : Val.toks (Node.forEachStatement a b c d e f g) =
      [a] ++ [b] ++ c.toks ++ [d] ++ e.toks ++ [f] ++ g.toks := rfl
  have e2 : Val.toks (Node.forEachStatement a b c d e f g) =
      Val.toks a ++ Val.toks b ++ Val.toks c ++ Val.toks d ++ Val.toks e ++ Val.toks f ++ Val.toks g := by
    rw [e1]; try simp only [toksL_eq, toksO_eq, toksOL_eq, toksLO_eq, toksTR_eq, toList_eq]
    try rfl
  unfold Good
  rw [e2]
  try simp only [List.mem_append, or_imp, forall_and, and_assoc]

theorem good_n_block (a : Token) (b : List Node) (c : Token) : Good T (Node.block a b c) ↔ Good T a ∧ Good T b ∧ Good T c := by
  have e1 : Val.toks (Node.block a b c) =
      [a] ++ Node.toksL b ++ [c] := rfl
  have e2 : Val.toks (Node.block a b c) =
      Val.toks a ++ Val.toks b ++ Val.toks c := by
    rw [e1]; try simp only [toksL_eq, toksO_eq, toksOL_eq, toksLO_eq, toksTR_eq, toList_eq]
    try rfl
  unfold Good
  rw [e2]
  try simp only [List.mem_append, or_imp, forall_and, and_assoc]

theorem good_n_alternativeBlock (a : Token) (b : List Node) (c : Token) : Good T (Node.alternativeBlock a b c) ↔ Good T a ∧ Good T b ∧ Good T c := by
  have e1 : Val.toks (Node.alternativeBlock a b c) =
      [a] ++ Node.toksL b ++ [c] := rfl
  have e2 : Val.toks (Node.alternativeBlock a b c) =
      Val.toks a ++ Val.toks b ++ Val.toks c := by
    rw [e1]; try simp only [toksL_eq, toksO_eq, toksOL_eq, toksLO_eq, toksTR_eq, toList_eq]
    try rfl
  unfold Good
  rw [e2]
  try simp only [List.mem_append, or_imp, forall_and, and_assoc]

theorem good_n_ifBranch (a : Token) (b : Token) (c : Node) (d : Token) (e : Node) : Good T (Node.ifBranch a b c d e) ↔ Good T a ∧ Good T b ∧ Good T c ∧ Good T d ∧ Good T e := by
  have e1 : Val.toks (Node.ifBranch a b c d e) =
      [a] ++ [b] ++ c.toks ++ [d] ++ e.toks := rfl
  have e2 : Val.toks (Node.ifBranch a b c d e) =
      Val.toks a ++ Val.toks b ++ Val.toks c ++ Val.toks d ++ Val.toks e := by
    rw [e1]; try simp only [toksL_eq, toksO_eq, toksOL_eq, toksLO_eq, toksTR_eq, toList_eq]
    try rfl
  unfold Good
  rw [e2]
  try simp only [List.mem_append, or_imp, forall_and, and_assoc]

theorem good_n_elseBranch (a : Token) (b : Node) : Good T (Node.elseBranch a b) ↔ Good T a ∧ Good T b := by
  have e1 : Val.toks (Node.elseBranch a b) =
      [a] ++ b.toks := rfl
  have e2 : Val.toks (Node.elseBranch a b) =
      Val.toks a ++ Val.toks b := by
    rw [e1]; try simp only [toksL_eq, toksO_eq, toksOL_eq, toksLO_eq, toksTR_eq, toList_eq]
    try rfl
  unfold Good
  rw [e2]
  try simp only [List.mem_append, or_imp, forall_and, and_assoc]

theorem good_n_ifStatement (a : Node) (b : List Node) (c : Option Node) : Good T (Node.ifStatement a b c) ↔ Good T a ∧ Good T b ∧ Good T c := by
  have e1 : Val.toks (Node.ifStatement a b c) =
      a.toks ++ Node.toksL b ++ Node.toksO c := rfl
  have e2 : Val.toks (Node.ifStatement a b c) =
      Val.toks a ++ Val.toks b ++ Val.toks c := by
    rw [e1]; try simp only [toksL_eq, toksO_eq, toksOL_eq, toksLO_eq, toksTR_eq, toList_eq]
    try rfl
  unfold Good
  rw [e2]
  try simp only [List.mem_append, or_imp, forall_and, and_assoc]

theorem good_n_switchBranch (a : List (Option Node)) (b : List Node) : Good T (Node.switchBranch a b) ↔ Good T a ∧ Good T b := by
  have e1 : Val.toks (Node.switchBranch a b) =
      Node.toksLO a ++ Node.toksL b := rfl
  have e2 : Val.toks (Node.switchBranch a b) =
      Val.toks a ++ Val.toks b := by
    rw [e1]; try simp only [toksL_eq, toksO_eq, toksOL_eq, toksLO_eq, toksTR_eq, toList_eq]
    try rfl
  unfold Good
  rw [e2]
  try simp only [List.mem_append, or_imp, forall_and, and_assoc]

theorem good_n_switchCase (a : Token) (b : Token) (c : Node) (d : Token) (e : Node) : Good T (Node.switchCase a b c d e) ↔ Good T a ∧ Good T b ∧ Good T c ∧ Good T d ∧ Good T e := by
  have e1 : Val.toks (Node.switchCase a b c d e) =
      [a] ++ [b] ++ c.toks ++ [d] ++ e.toks := rfl
  have e2 : Val.toks (Node.switchCase a b c d e) =
      Val.toks a ++ Val.toks b ++ Val.toks c ++ Val.toks d ++ Val.toks e := by
    rw [e1]; try simp only [toksL_eq, toksO_eq, toksOL_eq, toksLO_eq, toksTR_eq, toList_eq]
    try rfl
  unfold Good
  rw [e2]
  try simp only [List.mem_append, or_imp, forall_and, and_assoc]

theorem good_n_switchBody (a : Token) (b : List Node) (c : Token) : Good T (Node.switchBody a b c) ↔ Good T a ∧ Good T b ∧ Good T c := by
  have e1 : Val.toks (Node.switchBody a b c) =
      [a] ++ Node.toksL b ++ [c] := rfl
  have e2 : Val.toks (Node.switchBody a b c) =
      Val.toks a ++ Val.toks b ++ Val.toks c := by
    rw [e1]; try simp only [toksL_eq, toksO_eq, toksOL_eq, toksLO_eq, toksTR_eq, toList_eq]
    try rfl
  unfold Good
  rw [e2]
  try simp only [List.mem_append, or_imp, forall_and, and_assoc]

theorem good_n_tokenStatement (a : Token) (b : Option Node) : Good T (Node.tokenStatement a b) ↔ Good T a ∧ Good T b := by
  have e1 : Val.toks (Node.tokenStatement a b) =
      [a] ++ Node.toksO b := rfl
  have e2 : Val.toks (Node.tokenStatement a b) =
      Val.toks a ++ Val.toks b := by
    rw [e1]; try simp only [toksL_eq, toksO_eq, toksOL_eq, toksLO_eq, toksTR_eq, toList_eq]
    try rfl
  unfold Good
  rw [e2]
  try simp only [List.mem_append, or_imp, forall_and, and_assoc]

theorem good_n_catchBlock (a : Token) (b : Token) (c : List Node) (d : Token) (e : Token) (f : Node) : Good T (Node.catchBlock a b c d e f) ↔ Good T a ∧ Good T b ∧ Good T c ∧ Good T d ∧ Good T e ∧ Good T f := by
  have e1 : Val.toks (Node.catchBlock a b c d e f) =
      [a] ++ [b] ++ Node.toksL c ++ [d] ++ [e] ++ f.toks := rfl
  have e2 : Val.toks (Node.catchBlock a b c d e f) =
      Val.toks a ++ Val.toks b ++ Val.toks c ++ Val.toks d ++ Val.toks e ++ Val.toks f := by
    rw [e1]; try simp only [toksL_eq, toksO_eq, toksOL_eq, toksLO_eq, toksTR_eq, toList_eq]
    try rfl
  unfold Good
  rw [e2]
  try simp only [List.mem_append, or_imp, forall_and, and_assoc]

theorem good_n_finallyBlock (a : Token) (b : Node) : Good T (Node.finallyBlock a b) ↔ Good T a ∧ Good T b := by
  have e1 : Val.toks (Node.finallyBlock a b) =
      [a] ++ b.toks := rfl
  have e2 : Val.toks (Node.finallyBlock a b) =
      Val.toks a ++ Val.toks b := by
    rw [e1]; try simp only [toksL_eq, toksO_eq, toksOL_eq, toksLO_eq, toksTR_eq, toList_eq]
    try rfl
  unfold Good
  rw [e2]
  try simp only [List.mem_append, or_imp, forall_and, and_assoc]

theorem good_n_tryCatch (a : Token) (b : Node) (c : List Node) (d : Option Node) : Good T (Node.tryCatch a b c d) ↔ Good T a ∧ Good T b ∧ Good T c ∧ Good T d := by
  have e1 : Val.toks (Node.tryCatch a b c d) =
      [a] ++ b.toks ++ Node.toksL c ++ Node.toksO d := rfl
  have e2 : Val.toks (Node.tryCatch a b c d) =
      Val.toks a ++ Val.toks b ++ Val.toks c ++ Val.toks d := by
    rw [e1]; try simp only [toksL_eq, toksO_eq, toksOL_eq, toksLO_eq, toksTR_eq, toList_eq]
    try rfl
  unfold Good
  rw [e2]
  try simp only [List.mem_append, or_imp, forall_and, and_assoc]

theorem good_n_staticVariablesStatement (a : Token) (b : List Node) : Good T (Node.staticVariablesStatement a b) ↔ Good T a ∧ Good T b := by
  have e1 : Val.toks (Node.staticVariablesStatement a b) =
      [a] ++ Node.toksL b := rfl
  have e2 : Val.toks (Node.staticVariablesStatement a b) =
      Val.toks a ++ Val.toks b := by
    rw [e1]; try simp only [toksL_eq, toksO_eq, toksOL_eq, toksLO_eq, toksTR_eq, toList_eq]
    try rfl
  unfold Good
  rw [e2]
  try simp only [List.mem_append, or_imp, forall_and, and_assoc]

theorem good_n_globalVariablesStatement (a : Token) (b : List Node) : Good T (Node.globalVariablesStatement a b) ↔ Good T a ∧ Good T b := by
  have e1 : Val.toks (Node.globalVariablesStatement a b) =
      [a] ++ Node.toksL b := rfl
  have e2 : Val.toks (Node.globalVariablesStatement a b) =
      Val.toks a ++ Val.toks b := by
    rw [e1]; try simp only [toksL_eq, toksO_eq, toksOL_eq, toksLO_eq, toksTR_eq, toList_eq]
    try rfl
  unfold Good
  rw [e2]
  try simp only [List.mem_append, or_imp, forall_and, and_assoc]

theorem good_n_inlineHtml (a : Token) (b : Option Token) : Good T (Node.inlineHtml a b) ↔ Good T a ∧ Good T b := by
  have e1 : Val.toks (Node.inlineHtml a b) =
      [a] ++ b.toList := rfl
  have e2 : Val.toks (Node.inlineHtml a b) =
      Val.toks a ++ Val.toks b := by
    rw [e1]; try simp only [toksL_eq, toksO_eq, toksOL_eq, toksLO_eq, toksTR_eq, toList_eq]
    try rfl
  unfold Good
  rw [e2]
  try simp only [List.mem_append, or_imp, forall_and, and_assoc]

theorem good_n_attr (a : Token) (b : List Node) (c : Token) : Good T (Node.attr a b c) ↔ Good T a ∧ Good T b ∧ Good T c := by
  have e1 : Val.toks (Node.attr a b c) =
      [a] ++ Node.toksL b ++ [c] := rfl
  have e2 : Val.toks (Node.attr a b c) =
      Val.toks a ++ Val.toks b ++ Val.toks c := by
    rw [e1]; try simp only [toksL_eq, toksO_eq, toksOL_eq, toksLO_eq, toksTR_eq, toList_eq]
    try rfl
  unfold Good
  rw [e2]
  try simp only [List.mem_append, or_imp, forall_and, and_assoc]

theorem good_n_emptyScript : Good T (Node.emptyScript) ↔ True := by
  have e1 : Val.toks (Node.emptyScript) = [] := rfl
  unfold Good
  rw [e1]
  simp

end

attribute [good] good_token good_unit good_bool good_ctx good_tt good_none good_some good_prod good_inl good_inr
  good_nil good_cons good_append good_toList good_typeRefOf good_wrongToken good_missingIdentifier
  good_unexpectedToken good_illegalOffsetType good_eof good_n_docComment good_n_docCommentParam
  good_n_docCommentProperty good_n_docCommentVar good_n_docCommentReturn good_n_unary good_n_postUnary good_n_const
  good_n_binary good_n_ternary good_n_missing good_n_literal good_n_variable good_n_lexicalVariable
  good_n_aliasedVariable good_n_dynamicVariable good_n_staticVariable good_n_identifier good_n_grouping good_n_array
  good_n_oldArray good_n_arrayElement good_n_list good_n_call good_n_isset good_n_emptyExpr good_n_exitExpr
  good_n_haltCompiler good_n_dieExpr good_n_newExpr good_n_cloneExpr good_n_member good_n_staticMember good_n_field
  good_n_matchExpr good_n_matchArm good_n_staticExpr good_n_closure good_n_arrowFunction good_n_namedParameter
  good_n_functionArgument good_n_dataType good_n_returnType good_n_typeRef good_n_anonClass good_n_yieldExpr
  good_n_yieldFrom good_n_fileInclude good_n_useDeclaration good_n_useConst good_n_useFunction good_n_groupedUse
  good_n_expressionStatement good_n_echoStatement good_n_constStatement good_n_printStatement good_n_gotoStatement
  good_n_labelStatement good_n_throwStatement good_n_declareStatement good_n_defineStatement good_n_unsetStatement
  good_n_dieStatement good_n_returnStatement good_n_namespaceStatement good_n_namespaceBlock good_n_useStatement
  good_n_useFunctionStatement good_n_useConstStatement good_n_useTraitStatement good_n_useTrait
  good_n_useTraitAlterationBlock good_n_useTraitInsteadOf good_n_useTraitAs good_n_classStatement
  good_n_traitStatement good_n_interface good_n_classConstantDefinitionStatement good_n_classConstant good_n_property
  good_n_propertyDefinitionStatement good_n_methodDefinitionStatement good_n_functionDefinitionStatement
  good_n_namedFunctionDefinitionStatement good_n_whileStatement good_n_doWhileStatement good_n_forStatement
  good_n_forEachStatement good_n_block good_n_alternativeBlock good_n_ifBranch good_n_elseBranch good_n_ifStatement
  good_n_switchBranch good_n_switchCase good_n_switchBody good_n_tokenStatement good_n_catchBlock good_n_finallyBlock
  good_n_tryCatch good_n_staticVariablesStatement good_n_globalVariablesStatement good_n_inlineHtml good_n_attr
  good_n_emptyScript true_and and_true and_self

/-- Simplifies `Good` of a constructor application to `Good` of its fields. -/
macro "good_simp" loc:(ppSpace Lean.Parser.Tactic.location)? : tactic => `(tactic| simp only [good] $[$loc]?)

end PhpLs.Parser

