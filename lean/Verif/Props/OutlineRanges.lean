import Verif.Props.Declarations
import Verif.Props.ScannerEnds
import Verif.BackendQueries

/-!
# C74: the name of a symbol is inside of the symbol

A client shows the outline of a file by ranges, and the protocol demands that the range of the name of a symbol (`selectionRange`)
lies in the range of the symbol.

* `C74_declared`: this holds for every declaration of a tree whose declarations end where their last part ends (`Sound`).
* `C74_symbols_partial`: so it holds for the symbols that are collected for a text, and
* `C74_outline_partial`: for the answer about the symbols of the document.
* `C74_violated_arrow`: the range of an arrow function by reference starts behind its keyword, by which it is shown.
* `C74_violated_namespace`: a namespace in the body of a function gets the range of the name of the function.

Missing: namespaces, whose range is that of the file; texts with syntax errors; declarations with a part of odd range (see `Odd`).
-/

namespace PhpLs

open Parser Declared Suggester

/-! ## What is demanded -/

/-- `p` is not behind `q`. -/
def Pos.NotBehind (p q : Pos) : Prop := p.line < q.line ∨ p.line = q.line ∧ p.character ≤ q.character

/-- The range `a` is inside of the range `b`. -/
def LspRange.Inside (a b : LspRange) : Prop := b.start.NotBehind a.start ∧ a.end.NotBehind b.end

namespace Outlined

/-- The comment a function or method is shown with. -/
def commentOf : Node → Option Node
  | .methodDefinitionStatement _ _ _ _ _ _ _ _ doc _ => doc
  | .namedFunctionDefinitionStatement _ _ _ (.functionDefinitionStatement _ _ _ _ _ doc) _ => doc
  | _ => none

/-- The parts of a declaration are where they belong: its last part has a range that is its place, an arrow function does not start
with `&`, the comment is in front. -/
structure Sound (m : Node) : Prop where
  firm : Firm m
  classDoc : DocInFront Upto m
  doc : ∀ d ∈ commentOf m, ∀ k ∈ nameOf m, ∀ r r', d.range = some r → k.range = some r' → Upto r.start r'.start

/-- The name of what is declared is at its place. -/
def NameInside (f : Fact) : Prop := ∀ p, f.place = some p → f.namePlace.Inside p

/-- All the declarations, also those inside of others. -/
def All (P : Fact → Prop) : Outline → Prop
  | .nil => True
  | .cons f i r => P f ∧ All P i ∧ All P r

theorem All.append {P : Fact → Prop} : ∀ {a b : Outline}, All P a → All P b → All P (a.append b)
  | .nil, _, _, hb => hb
  | .cons _ _ _, _, ha, hb => ⟨ha.1, ha.2.1, ha.2.2.append hb⟩

theorem All.flat {P : Fact → Prop} : ∀ {l : List Fact}, (∀ f ∈ l, P f) → All P (.flat l)
  | [], _ => trivial
  | f :: l, h => ⟨h f (by simp), trivial, All.flat fun g hg => h g (by simp [hg])⟩

mutual

theorem one_all {P : Fact → Prop} {S : Node → Prop} (down : ∀ m, S m → ∀ c ∈ m.children, S c)
    (ho : ∀ ns m f a, S m → Opens ns m f a → P f ∧ All P a) (hl : ∀ m fs, S m → Lists m fs → ∀ f ∈ fs, P f)
    {ns ns' : Option Text} {node : Node} {o : Outline} : One ns node ns' o → S node → All P o
  | .opens _ h m _, hs => by
    obtain ⟨h1, h2⟩ := ho _ _ _ _ hs h
    exact ⟨h1, h2.append (many_all down ho hl m (down _ hs)), trivial⟩
  | .lists _ h _, hs => .flat (hl _ _ hs h)
  | .passes _ _ m _, hs => many_all down ho hl m (down _ hs)

theorem many_all {P : Fact → Prop} {S : Node → Prop} (down : ∀ m, S m → ∀ c ∈ m.children, S c)
    (ho : ∀ ns m f a, S m → Opens ns m f a → P f ∧ All P a) (hl : ∀ m fs, S m → Lists m fs → ∀ f ∈ fs, P f)
    {ns ns' : Option Text} {l : List Node} {o : Outline} : Many ns l ns' o → (∀ n ∈ l, S n) → All P o
  | .nil, _ => trivial
  | .cons h m, hs => (one_all down ho hl h (hs _ (by simp))).append (many_all down ho hl m fun n hn => hs n (by simp [hn]))

end

theorem inside_refl (a : LspRange) : a.Inside a := ⟨.inr ⟨rfl, Nat.le_refl _⟩, .inr ⟨rfl, Nat.le_refl _⟩⟩

theorem same {f : Fact} (h : f.place = some f.namePlace) : NameInside f := by
  intro p hp
  cases h.symm.trans hp
  exact inside_refl _

theorem inside_of {a b : NodeRange} (h : Upto b.start a.start ∧ Upto a.end b.end) : (spot a).Inside (spot b) := h

theorem consts_same {whole : Node} {doc : Option Node} {l : List Node} {fs : List Fact} (h : Consts whole doc l fs) :
    ∀ f ∈ fs, f.place = some f.namePlace := by
  induction h with
  | nil => simp
  | const _ _ _ ih => simpa using ih
  | other _ _ ih => exact ih

theorem properties_same {fact : Text → Fact} (hf : ∀ n, (fact n).place = some (fact n).namePlace) {l : List Node} {fs : List Fact}
    (h : Properties fact l fs) : ∀ f ∈ fs, f.place = some f.namePlace := by
  induction h with
  | nil => simp
  | property _ _ ih => simpa using ⟨hf _, ih⟩
  | other _ _ ih => exact ih

/-- The range of the node covers its name. -/
def Named (m : Node) : Prop := ∀ k, nameOf m = some k → ∀ r r', m.range = some r → k.range = some r' →
  Upto r.start r'.start ∧ Upto r'.end r.end

theorem opens_inside {ns : Option Text} {m : Node} {f : Fact} {a : Outline} (hn : Named m) (hs : Sound m) (h : Opens ns m f a) :
    NameInside f ∧ All NameInside a := by
  cases h with
  | «namespace» =>
    refine ⟨fun p hp => ?_, trivial⟩
    cases hp
  | «class» _ h2 h3 _ =>
    refine ⟨fun p hp => ?_, same rfl, trivial, trivial⟩
    cases hp
    exact inside_of (hn _ rfl _ _ h2 h3)
  | trait _ h2 h3 =>
    refine ⟨fun p hp => ?_, trivial⟩
    cases hp
    exact inside_of (hn _ rfl _ _ h2 h3)
  | interface _ h2 h3 =>
    refine ⟨fun p hp => ?_, trivial⟩
    cases hp
    exact inside_of (hn _ rfl _ _ h2 h3)
  | method _ h0 h2 h3 =>
    refine ⟨fun p hp => ?_, trivial⟩
    cases hp
    cases h2 with
    | bare h2 => exact inside_of (hn _ rfl _ _ h2 h3)
    | commented h1 h2 => exact ⟨hs.doc _ rfl _ rfl _ _ h1 h3, (inside_of (hn _ rfl _ _ h2 h3)).2⟩
  | function _ h0 h2 h3 =>
    subst h0
    refine ⟨fun p hp => ?_, trivial⟩
    cases hp
    cases h2 with
    | bare h2 => exact inside_of (hn _ rfl _ _ h2 h3)
    | commented h1 h2 => exact ⟨hs.doc _ rfl _ rfl _ _ h1 h3, (inside_of (hn _ rfl _ _ h2 h3)).2⟩
  | arrow h2 h3 =>
    refine ⟨fun p hp => ?_, trivial⟩
    cases hp
    exact inside_of (hn _ rfl _ _ h2 h3)

theorem lists_inside {m : Node} {fs : List Fact} (hn : Named m) (h : Lists m fs) : ∀ f ∈ fs, NameInside f := by
  cases h with
  | use | computed | noMethod | noFunction => simp
  | const => simpa using same rfl
  | consts h => exact fun f hf => same (consts_same h f hf)
  | documented => simpa using same rfl
  | properties _ h => exact fun f hf => same (properties_same (fun _ => rfl) h f hf)
  | argument _ h2 h3 =>
    simp only [List.mem_singleton, forall_eq]
    intro p hp
    cases hp
    exact inside_of (hn _ rfl _ _ h2 h3)
  | define _ h2 h3 =>
    simp only [List.mem_singleton, forall_eq]
    intro p hp
    cases hp
    exact inside_of (hn _ rfl _ _ h2 h3)

theorem outlineOf_all {P : Fact → Prop} : ∀ {f : Forest Symbol}, All P (outlineOf f) → ∀ x ∈ f.flat, P (factOf x.2)
  | .nil, _, x, hx => by simp at hx
  | .cons i v k r, h, x, hx => by
    simp only [Forest.flat_cons, List.mem_cons, List.mem_append] at hx
    rcases hx with rfl | hx | hx
    · exact h.1
    · exact outlineOf_all h.2.1 x hx
    · exact outlineOf_all h.2.2 x hx

mutual

/-- What is shown has its name inside, and all that is shown below it. -/
inductive Shown : DocSym → Prop
  | mk {kind name range selection detail deprecated children} : (kind ≠ .namespace → selection.Inside range) →
      AllShown children → Shown (.mk kind name range selection detail deprecated children)

/-- All of a list. -/
inductive AllShown : List DocSym → Prop
  | nil : AllShown []
  | cons {d l} : Shown d → AllShown l → AllShown (d :: l)

end

theorem lspKind_namespace : SymbolKind.namespace.lspKind = some .namespace ∨ SymbolKind.namespace.lspKind = none := by decide

theorem outline_shown {a : Arena Symbol} : ∀ {f : Forest Symbol} {top : Bool} {ds : List DocSym},
    (∀ x ∈ f.flat, x.2.kind ≠ .namespace → x.2.selectionRange.Inside x.2.range) → Backend.outline a top f = .ok ds → AllShown ds
  | .nil, _, _, _, e => by
    cases e
    exact .nil
  | .cons i v k r, top, ds, h, e => by
    have hr : ∀ {ds'}, Backend.outline a top r = .ok ds' → AllShown ds' := fun e => outline_shown (fun x hx => h x (by simp [hx])) e
    unfold Backend.outline at e
    split at e
    · exact hr e
    · obtain ⟨ch, h1, e⟩ := Out.bind_eq_ok e
      split at e
      · exact hr e
      · next kind hk =>
        obtain ⟨d, _, e⟩ := Out.bind_eq_ok e
        obtain ⟨l, h2, e⟩ := Out.bind_eq_ok e
        cases e
        refine .cons (.mk (fun hne => h (i, v) (by simp) fun hv => ?_) (outline_shown (fun x hx => h x (by simp [hx])) h1)) (hr h2)
        simp only at hv
        rw [hv] at hk
        rcases lspKind_namespace with e | e <;> rw [e] at hk <;> cases hk
        exact hne rfl

end Outlined

open Outlined

/-- **C74**: in a text that is parsed without errors every declaration has its name inside, if its parts are where they belong. -/
theorem C74_declared {U : Unicode} {n : Nat} {tokens : List Token} {nodes : List Node} {s : PSt} (ht : Spaced tokens)
    (h : ast U n tokens = .ok nodes s) (he : s.errors = []) (hs : ∀ stmt ∈ nodes, ∀ m, Below stmt m → Sound m) {ns : Option Text}
    {o : Outline} (ho : Many none nodes ns o) : All NameInside o := by
  have hn : ∀ m, (∃ stmt ∈ nodes, Below stmt m) → Named m := by
    rintro m ⟨stmt, hst, hb⟩ k hk r r' hr hr'
    exact ast_named ht h he hst hb hk (hs stmt hst m hb).firm (hs stmt hst m hb).classDoc hr hr'
  refine many_all (S := fun m => ∃ stmt ∈ nodes, Below stmt m) ?_ ?_ ?_ ho fun m hm => ⟨m, hm, .here _⟩
  · rintro m ⟨stmt, hst, hb⟩ c hc
    exact ⟨stmt, hst, Below.trans hb (.down hc (.here _))⟩
  · rintro ns m f a ⟨stmt, hst, hb⟩ ho
    exact opens_inside (hn m ⟨stmt, hst, hb⟩) (hs stmt hst m hb) ho
  · rintro m fs hm hl
    exact lists_inside (hn m hm) hl

open Backend in
/-- **C74** for the symbols that are collected for a text, whatever the server did before. -/
theorem C74_symbols_partial {U : Unicode} {t : Text} {sc : Scanner.St} {n : Nat} {nodes : List Node} {s : PSt}
    (hU : Scanner.KeepsLength U) (hsc : Scanner.scan U t = .ok sc) (hx : Scanner.ExceptionsApart t sc.tokens)
    (h : ast U n sc.tokens = .ok nodes s) (he : s.errors = []) (hs : ∀ stmt ∈ nodes, ∀ m, Below stmt m → Sound m) {host : Host}
    {path : Text} {range : LspRange} {st st' : Backend} (hst : Serving host st)
    (hc : collectSymbols host path nodes range st = .ok st') :
    ∃ root file kids, Dict.get? st'.files path = some root ∧ st'.arena.forest.node? root.idx = some (root, file, kids) ∧
      ∀ x ∈ kids.flat, x.2.kind ≠ .namespace → x.2.selectionRange.Inside x.2.range := by
  obtain ⟨⟨root, file, kids, ns, h1, h2, _, h4⟩, _⟩ := C66_served hst hc
  refine ⟨root, file, kids, h1, h2, fun x hx' hk => ?_⟩
  have := outlineOf_all (C74_declared (Scanner.C11_spaced_partial hU hsc hx) h he hs h4) x hx'
  exact this x.2.range (by simp [factOf, hk])

open Backend in
/-- **C74** for the answer: everything in the outline of the file, except for namespaces, has its name inside. -/
theorem C74_outline_partial {U : Unicode} {t : Text} {sc : Scanner.St} {n : Nat} {nodes : List Node} {s : PSt}
    (hU : Scanner.KeepsLength U) (hsc : Scanner.scan U t = .ok sc) (hx : Scanner.ExceptionsApart t sc.tokens)
    (h : ast U n sc.tokens = .ok nodes s) (he : s.errors = []) (hs : ∀ stmt ∈ nodes, ∀ m, Below stmt m → Sound m) {host : Host}
    {path : Text} {range : LspRange} {st st' : Backend} (hst : Serving host st)
    (hc : collectSymbols host path nodes range st = .ok st') {ds : List DocSym} (hd : documentSymbols st' path = .ok (some ds)) :
    AllShown ds := by
  obtain ⟨root, file, kids, h1, h2, h3⟩ := C74_symbols_partial hU hsc hx h he hs hst hc
  unfold documentSymbols at hd
  rw [h1] at hd
  simp only [h2] at hd
  obtain ⟨r, h4, h5⟩ := Out.bind_eq_ok (x := outline st'.arena true kids) hd
  cases h5
  exact outline_shown h3 h4

/-! ## A text that meets the hypotheses -/

namespace Outlined

/-- The test of `Placed b ∨ Fenced b`. -/
def firmPart (fuel : Nat) : Node → Bool
  | .block .. => true
  | n => placed fuel n

theorem firmPart_of {fuel : Nat} {n : Node} (h : firmPart fuel n = true) : Placed n ∨ Fenced n := by
  unfold firmPart at h
  split at h
  · exact .inr trivial
  · exact .inl (placed_of fuel n h)

/-- `FirmBody` as a test. -/
def firmBody (fuel : Nat) : Node → Bool
  | .functionDefinitionStatement _ _ _ _ (some b) _ => firmPart fuel b
  | .functionDefinitionStatement _ _ _ (some r) none _ => placed fuel r
  | .functionDefinitionStatement _ _ _ none none _ => true
  | _ => false

theorem firmBody_of {fuel : Nat} {n : Node} (h : firmBody fuel n = true) : FirmBody n := by
  unfold firmBody at h
  split at h
  · exact firmPart_of h
  · exact placed_of fuel _ h
  · trivial
  · cases h

/-- `a` is not behind `b`. -/
def upto (a b : ColLine) : Bool := decide (a.2 < b.2 ∨ a.2 = b.2 ∧ a.1 ≤ b.1)

theorem upto_of {a b : ColLine} (h : upto a b = true) : Upto a b := of_decide_eq_true h

/-- The comment starts in front of the token. -/
def startsBefore (d : Option Node) (k : Token) : Bool :=
  match d with
  | none => true
  | some d =>
    match d.range, k.range with
    | some r, some r' => upto r.start r'.start
    | _, _ => true

theorem startsBefore_of {d : Option Node} {k : Token} (h : startsBefore d k = true) :
    ∀ d' ∈ d, ∀ r r', d'.range = some r → k.range = some r' → Upto r.start r'.start := by
  rintro d' rfl r r' hr hr'
  simp only [startsBefore, hr, hr'] at h
  exact upto_of h

/-- The comment is in front of the token. -/
def inFront (d : Node) (k : Token) : Bool :=
  match d.range with
  | some r => upto r.start r.end && upto r.end (k.col, k.line)
  | none => false

theorem inFront_of {d : Node} {k : Token} (h : inFront d k = true) : InFront Upto d k := by
  unfold inFront at h
  split at h
  · next r hr =>
    rw [Bool.and_eq_true] at h
    exact ⟨r, hr, upto_of h.1, upto_of h.2⟩
  · cases h

/-- Nodes for which there is something to test, see `Sound`. -/
def sound (fuel : Nat) : Node → Bool
  | .classStatement _ _ _ _ _ _ b none _ => firmPart fuel b
  | .classStatement t _ _ _ _ _ b (some d) _ => firmPart fuel b && inFront d t
  | .traitStatement _ _ b _ => firmPart fuel b
  | .interface _ _ _ b _ => firmPart fuel b
  | .methodDefinitionStatement _ _ _ name _ _ f _ doc _ => firmBody fuel f && startsBefore doc name
  | .namedFunctionDefinitionStatement _ _ name (.functionDefinitionStatement a b c d e doc) _ =>
    firmBody fuel (.functionDefinitionStatement a b c d e doc) && startsBefore doc name
  | .namedFunctionDefinitionStatement .. => false
  | .arrowFunction _ br _ _ _ _ _ _ b _ => br.isNone && firmPart fuel b
  | .functionArgument ty _ _ d _ _ _ _ => ty.all (placed fuel) && d.all (firmPart fuel)
  | _ => true

theorem sound_of {fuel : Nat} {m : Node} (h : sound fuel m = true) : Sound m := by
  cases m
  case classStatement d _ =>
    cases d with
    | none => exact ⟨firmPart_of h, trivial, nofun⟩
    | some d =>
      simp only [sound, Bool.and_eq_true] at h
      exact ⟨firmPart_of h.1, inFront_of h.2, nofun⟩
  case traitStatement => exact ⟨firmPart_of h, trivial, nofun⟩
  case interface => exact ⟨firmPart_of h, trivial, nofun⟩
  case methodDefinitionStatement name _ _ f _ doc _ =>
    simp only [sound, Bool.and_eq_true] at h
    exact ⟨firmBody_of h.1, trivial, fun d hd k hk => by cases hk; exact startsBefore_of h.2 d hd⟩
  case namedFunctionDefinitionStatement name f _ =>
    cases f
    case functionDefinitionStatement doc =>
      simp only [sound, Bool.and_eq_true] at h
      exact ⟨firmBody_of h.1, trivial, fun d hd k hk => by cases hk; exact startsBefore_of h.2 d hd⟩
    all_goals cases h
  case arrowFunction =>
    simp only [sound, Bool.and_eq_true, Option.isNone_iff_eq_none] at h
    exact ⟨⟨fun _ => h.1, firmPart_of h.2⟩, trivial, nofun⟩
  case functionArgument =>
    simp only [sound, Bool.and_eq_true, Option.all_eq_true_iff_get] at h
    exact ⟨⟨fun _ x hx => by cases hx; exact placed_of fuel _ (h.1 rfl), fun x hx => by cases hx; exact firmPart_of (h.2 rfl)⟩, trivial, nofun⟩
  all_goals exact ⟨trivial, trivial, nofun⟩

/-- The test for a tree. -/
def soundTree : Nat → Node → Bool
  | 0, _ => false
  | fuel + 1, n => sound fuel n && n.children.all (soundTree fuel)

theorem soundTree_of : ∀ {fuel : Nat} {n m : Node}, soundTree fuel n = true → Below n m → Sound m
  | 0, _, _, h, _ => by cases h
  | fuel + 1, n, m, h, hb => by
    simp only [soundTree, Bool.and_eq_true, List.all_eq_true] at h
    cases hb with
    | here => exact sound_of h.1
    | down hc hb => exact soundTree_of (h.2 _ hc) hb

/-- A file with all the kinds of declarations. -/
def sample : Text := c!"<?php\n/** d */ final class A extends B {\n const C = 1;\n public $p = 2, $q;\n/** @return int */\n static function m(?int $a, B &...$b): int { return fn($x) => 1; }\n}\nabstract class D { abstract function n(): X; }\ntrait T { }\ninterface I extends J { function k(); }\n/** e */\nfunction &f($y = [1]) {}\ndefine('X', 1); const Y = 2;"

end Outlined

open Backend in
/-- The hypotheses of `C74_outline_partial` are met by a text with all the kinds of declarations; 20 symbols and the file. -/
example : ∃ sc nodes s st' ds, Scanner.scan Unicode.ascii sample = .ok sc ∧ Scanner.ExceptionsApart sample sc.tokens ∧
    ast Unicode.ascii 60 sc.tokens = .ok nodes s ∧ s.errors = [] ∧ (∀ stmt ∈ nodes, ∀ m, Below stmt m → Sound m) ∧
    Serving plainHost Backend.empty ∧ collectSymbols plainHost c!"f" nodes (getRange .empty) Backend.empty = .ok st' ∧
    documentSymbols st' c!"f" = .ok (some ds) ∧ st'.arena.forest.flat.length = 21 ∧ ds.length = 7 := by
  have h : (match Scanner.scan Unicode.ascii sample with
    | .ok sc => Scanner.apart sc.tokens && sc.tokens.all (fun k => k.t != .hereDocEnd) && (match ast Unicode.ascii 60 sc.tokens with
      | .ok nodes s => s.errors.isEmpty && nodes.all (soundTree 60) &&
        (match collectSymbols plainHost c!"f" nodes (getRange .empty) Backend.empty with
          | .ok st' => (match documentSymbols st' c!"f" with
            | .ok (some ds) => st'.arena.forest.flat.length == 21 && ds.length == 7
            | _ => false)
          | _ => false)
      | _ => false)
    | _ => false) = true := by decide +kernel
  split at h
  · rename_i sc hsc
    rw [Bool.and_eq_true, Bool.and_eq_true] at h
    obtain ⟨⟨h1, h1'⟩, h2⟩ := h
    split at h2
    · rename_i nodes s hn
      rw [Bool.and_eq_true, Bool.and_eq_true] at h2
      obtain ⟨⟨he, hso⟩, h3⟩ := h2
      split at h3
      · rename_i st' hc
        split at h3
        · rename_i ds hd
          simp only [List.all_eq_true, bne_iff_ne, List.isEmpty_iff, Bool.and_eq_true, beq_iff_eq] at h1' he hso h3
          exact ⟨sc, nodes, s, st', ds, hsc, ⟨Scanner.apart_of h1, fun k hk hx => absurd hx (h1' k hk)⟩, hn, he,
            fun stmt hst m hb => soundTree_of (hso stmt hst) hb, .start, hc, hd, h3⟩
        · cases h3
      · cases h3
    · cases h2
  · cases h

/-- **C74 violated**: the range of an arrow function by reference starts at the `&`, behind the `fn` by which it is shown. -/
theorem C74_violated_arrow :
    anySymbol c!"<?php $x = fn &($y) => 1;" (fun v => v.kind = .function ∧ v.selectionRange.start.character < v.range.start.character ∧
      v.selectionRange.start.line = v.range.start.line) = true ∧
    anySymbol c!"<?php $x = fn ($y) => 1;" (fun v => v.kind = .function ∧ v.selectionRange = ⟨⟨0, 11⟩, ⟨0, 13⟩⟩ ∧
      v.range = ⟨⟨0, 11⟩, ⟨0, 23⟩⟩) = true := by
  decide +kernel

/-- **C74 violated**: a namespace gets the range of the name of the symbol around it, which is the whole file for the usual one, but
the name of the function for one in the body of a function.  (PHP does not allow that, the parser reports nothing.) -/
theorem C74_violated_namespace :
    anySymbol c!"<?php function f() { namespace A; }" (fun v => v.kind = .namespace ∧ v.range = ⟨⟨0, 15⟩, ⟨0, 16⟩⟩ ∧
      v.selectionRange = ⟨⟨0, 31⟩, ⟨0, 32⟩⟩) = true := by
  decide +kernel

end PhpLs
