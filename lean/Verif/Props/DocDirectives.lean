import Verif.Props.DocBlock

/-!
# C22: the directives of a doc comment

A doc comment is a list of items: free text, directives with types, name and description, `@deprecated` and other directives.
Reading the text of the items gives exactly what each item says, whatever stands before and behind it.  The condition on a
directive is that its types are followed by a name or a description on the same line.  Without one the next line is swallowed
(`C22_violated`).
-/

namespace PhpLs.DocBlock

/-! ### The specification -/

/-- A type as it is written: names with `\` between them (the first one is empty in `\A\B`), and whether `[]` follows. -/
structure TypeS where
  segs : List Text
  multi : Bool

/-- What is read from a type, without the positions of the tokens. -/
abbrev Shape := List (TT × Option Text) × Bool

instance : DecidableEq Shape := inferInstanceAs (DecidableEq (List (TT × Option (List Char)) × Bool))

namespace TypeS

/-- The names as they are written. -/
def namesText : List Text → Text
  | [] => []
  | [w] => w
  | w :: r => w ++ '\\' :: namesText r

/-- A type as it is written. -/
def text (t : TypeS) : Text := namesText t.segs ++ if t.multi then c!"[]" else []

/-- The names as they are to be read. -/
def namesShape (U : Unicode) : List Text → List (TT × Option Text)
  | [] => []
  | [w] => if w = [] then [] else [(tokenType U w, some w)]
  | w :: r => (if w = [] then [] else [(tokenType U w, some w)]) ++ (.namespaceSeparator, none) :: namesShape U r

/-- A type as it is to be read. -/
def shape (U : Unicode) (t : TypeS) : Shape := (namesShape U t.segs, t.multi)

end TypeS

/-- A name: only characters of names. -/
def IsWord (U : Unicode) (al : Bool) (w : Text) : Prop := ∀ c ∈ w, identChar U al c = true ∧ U.isSpace c = false

/-- A type that can be read: at least one name or separator. -/
def TypeS.Ok (U : Unicode) (al : Bool) (t : TypeS) : Prop := t.segs ≠ [] ∧ t.segs ≠ [[]] ∧ ∀ w ∈ t.segs, IsWord U al w

/-- Types with `|` between them. -/
def typesText : List TypeS → Text
  | [] => []
  | [t] => t.text
  | t :: r => t.text ++ '|' :: typesText r

/-- Spaces and tabs. -/
def IsBlank (b : Text) : Prop := ∀ c ∈ b, c = ' ' ∨ c = '\t'

/-- The directives with a name. -/
inductive Kw
  | param | var | property
deriving DecidableEq

/-- The word of a directive. -/
def Kw.text : Kw → Text
  | .param => c!"param"
  | .var => c!"var"
  | .property => c!"property"

/-- The items of a doc comment. -/
inductive Item
  /-- Text without a directive. -/
  | free (t : Text)
  /-- `@param T $name description`, also `@var` and `@property`. -/
  | named (kw : Kw) (b1 : Text) (tys : List TypeS) (b2 : Text) (name descr : Text) (nl : Bool)
  /-- `@return T description`. -/
  | ret (b1 : Text) (tys : List TypeS) (b2 : Text) (descr : Text) (nl : Bool)
  /-- `@deprecated` and the white space behind it. -/
  | deprecated (space : Text)
  /-- Another directive and the white space behind it. -/
  | other (w space : Text)

/-- The end of the line. -/
def eol (nl : Bool) : Text := if nl then c!"\n" else []

/-- An item as it is written. -/
def Item.text : Item → Text
  | .free t => t
  | .named kw b1 tys b2 name descr nl => '@' :: (kw.text ++ (b1 ++ (typesText tys ++ (b2 ++ '$' :: (name ++ (descr ++ eol nl))))))
  | .ret b1 tys b2 descr nl => '@' :: (c!"return" ++ (b1 ++ (typesText tys ++ (b2 ++ (descr ++ eol nl)))))
  | .deprecated space => '@' :: (c!"deprecated" ++ space)
  | .other w space => '@' :: (w ++ space)

/-- Items as they are written. -/
def itemsText : List Item → Text
  | [] => []
  | i :: r => i.text ++ itemsText r

/-- The text does not start with such a character. -/
def NotHead (p : Char → Bool) (t : Text) : Prop := ∀ c, t.head? = some c → p c = false

/-- The words that mean something. -/
def known : List Text := [c!"param", c!"return", c!"var", c!"deprecated", c!"property"]

/-- The conditions on an item that is followed by the text `rest`. -/
def Item.Ok (U : Unicode) (rest : Text) : Item → Prop
  | .free t => '@' ∉ t
  | .named _ b1 tys b2 name descr nl => IsBlank b1 ∧ b1 ≠ [] ∧ (∀ t ∈ tys, t.Ok U false) ∧ IsBlank b2 ∧ (b2 = [] ↔ tys = []) ∧
      IsWord U false name ∧ NotHead (identChar U false) (descr ++ (eol nl ++ rest)) ∧ '\n' ∉ descr ∧ (nl = false → rest = [])
  | .ret b1 tys b2 descr nl => IsBlank b1 ∧ b1 ≠ [] ∧ tys ≠ [] ∧ (∀ t ∈ tys, t.Ok U true) ∧ IsBlank b2 ∧ b2 ≠ [] ∧
      descr ≠ [] ∧ NotHead U.isSpace descr ∧ '\n' ∉ descr ∧ (nl = false → rest = [])
  | .deprecated space => (∀ c ∈ space, U.isSpace c = true ∧ identChar U false c = false) ∧ NotHead U.isSpace rest ∧
      NotHead (identChar U false) (space ++ rest)
  | .other w space => IsWord U false w ∧ w ∉ known ∧ (∀ c ∈ space, U.isSpace c = true ∧ identChar U false c = false) ∧
      NotHead U.isSpace rest ∧ NotHead (identChar U false) (space ++ rest)

/-- The conditions on all items. -/
def ItemsOk (U : Unicode) : List Item → Prop
  | [] => True
  | i :: r => i.Ok U (itemsText r) ∧ ItemsOk U r

/-- The place (line and column) behind a text that starts at a place, where a line ends at each of the characters `brk`. -/
def place (brk : Char → Bool) (p : Nat × Nat) (t : Text) : Nat × Nat :=
  t.foldl (fun p c => if brk c then (p.1 + 1, 0) else (p.1, p.2 + 1)) p

/-- What a directive says: types, name, description and the place of the name. -/
abbrev Said := List Shape × Text × Text × (Nat × Nat)

instance : DecidableEq Said := inferInstanceAs (DecidableEq (List Shape × List Char × List Char × (Nat × Nat)))

/-- What an item that starts at a place says as a directive of one word. -/
def saidNamed (U : Unicode) (brk : Char → Bool) (kw : Kw) (p : Nat × Nat) : Item → List Said
  | .named kw' b1 tys b2 name descr _ =>
    if kw' = kw then
      [(tys.map (TypeS.shape U), name, descr, place brk p ('@' :: (kw.text ++ (b1 ++ (typesText tys ++ b2)))))]
    else []
  | _ => []

/-- What the directives of one word say in items that start at a place. -/
def said (U : Unicode) (brk : Char → Bool) (kw : Kw) (p : Nat × Nat) : List Item → List Said
  | [] => []
  | i :: r => saidNamed U brk kw p i ++ said U brk kw (place brk p i.text) r

/-- What `@return` says. -/
def saidReturn (U : Unicode) : Item → Option (List Shape × Text)
  | .ret _ tys _ descr _ => some (tys.map (TypeS.shape U), descr)
  | _ => none

/-- Whether the item is `@deprecated`. -/
def isDeprecated : Item → Bool
  | .deprecated _ => true
  | _ => false

/-- What an item adds to the description: its text without stars. -/
def description : Item → Text
  | .free t => t.filter (· ≠ '*')
  | _ => []

/-- What a type reference says. -/
def shapeOf (t : TypeRef) : Shape := (t.kind.map fun k => (k.t, k.label), t.multiple)

/-- What a node says as a directive of one word. -/
def saidBy : Kw → Node → Option Said
  | .param, .docCommentParam k (some tys) d => k.label.map fun n => (tys.map shapeOf, n, d, (k.line, k.col))
  | .var, .docCommentVar k (some tys) d => k.label.map fun n => (tys.map shapeOf, n, d, (k.line, k.col))
  | .property, .docCommentProperty k tys d => k.label.map fun n => ((tys.getD []).map shapeOf, n, d, (k.line, k.col))
  | _, _ => none

/-- What a node of `@return` says. -/
def returnedBy : Node → Option (List Shape × Text)
  | .docCommentReturn tys d => some ((tys.getD []).map shapeOf, d)
  | _ => none

/-! ### Reading -/

variable {U : Unicode}

theorem blank_space {b : Text} (h : IsBlank b) : ∀ c ∈ b, U.isSpace c = true := by
  intro c hc
  rcases h c hc with rfl | rfl <;> rw [U.space_ascii _ (by decide)] <;> decide

theorem blank_ident {b : Text} {al : Bool} (h : IsBlank b) : ∀ c ∈ b, identChar U al c = false := by
  intro c hc
  unfold identChar
  rcases h c hc with rfl | rfl <;> rw [U.alnum_ascii _ (by decide)] <;> cases al <;> decide

theorem ident_not_break {al : Bool} {c : Char} (h : identChar U al c = true) : c ≠ '\n' ∧ c ≠ '\r' := by
  refine ⟨?_, ?_⟩ <;> rintro rfl <;> unfold identChar at h <;> rw [U.alnum_ascii _ (by decide)] at h <;>
    cases al <;> exact absurd h (by decide)

theorem advance_plain {c : Char} (h : c ≠ '\n' ∧ c ≠ '\r') (col line : Nat) (r : Text) :
    advance ⟨col, line, c :: r⟩ = (some c, ⟨col + 1, line, r⟩) := by
  simp [advance, h.1, h.2]

theorem skipBlanks_blank (b rest : Text) (col line : Nat) (hb : IsBlank b) (hr : NotHead U.isSpace rest) :
    skipBlanks U ⟨col, line, b ++ rest⟩ = ⟨col + b.length, line, rest⟩ := by
  unfold skipBlanks
  simp only
  induction b generalizing col with
  | nil =>
    cases rest with
    | nil => rfl
    | cons c r =>
      have := hr c rfl
      simp [skipBlanksOn, this]
  | cons c b ih =>
    have hs := blank_space (U := U) hb c List.mem_cons_self
    have hc : c ≠ '\n' ∧ c ≠ '\r' := by
      rcases hb c List.mem_cons_self with rfl | rfl <;> decide
    simp only [List.cons_append, skipBlanksOn, hs, if_true]
    rw [advance_plain hc]
    rw [ih _ fun c h => hb c (List.mem_cons_of_mem _ h)]
    simp only [List.length_cons]
    congr 1
    omega

theorem skipBlanks_none (rest : Text) (col line : Nat) (hr : NotHead U.isSpace rest) :
    skipBlanks U ⟨col, line, rest⟩ = ⟨col, line, rest⟩ :=
  skipBlanks_blank [] rest col line (fun _ h => nomatch h) hr

theorem collectIdent_word {al : Bool} (w rest : Text) (col line : Nat) (hw : IsWord U al w) (hr : NotHead (identChar U al) rest) :
    collectIdent U al ⟨col, line, w ++ rest⟩ = (w, ⟨col + w.length, line, rest⟩) := by
  unfold collectIdent
  simp only
  induction w generalizing col with
  | nil =>
    cases rest with
    | nil => rfl
    | cons c r =>
      have := hr c rfl
      unfold identChar at this
      simp only [List.nil_append, collectIdentOn, this]
      rfl
  | cons c w ih =>
    have hs := (hw c List.mem_cons_self).1
    have hb := ident_not_break hs
    unfold identChar at hs
    simp only [List.cons_append, collectIdentOn, hs, if_true]
    rw [advance_plain hb]
    rw [ih _ fun c h => hw c (List.mem_cons_of_mem _ h)]
    simp only [List.length_cons]
    congr 2
    omega

/-- A type ends in front of such a text. -/
def Stop (U : Unicode) (al : Bool) (rest : Text) : Prop :=
  NotHead (fun c => identChar U al c || c = '\\' || c = '[') rest

theorem Stop.ident {al : Bool} {rest : Text} (h : Stop U al rest) : NotHead (identChar U al) rest := by
  intro c hc
  have := h c hc
  simp only [Bool.or_eq_false_iff] at this
  exact this.1.1

theorem peek_eq (col line : Nat) (t : Text) : peek ⟨col, line, t⟩ = t.head? := rfl

theorem collectTypeRef_reads {al : Bool} (multi : Bool) (rest : Text) (line : Nat) (hr : multi = false → Stop U al rest) :
    ∀ (segs : List Text) (fuel : Nat) (ps : List Token) (col : Nat), segs ≠ [] → (∀ w ∈ segs, IsWord U al w) → segs.length ≤ fuel →
    (ps ≠ [] ∨ segs ≠ [[]]) →
    ∃ ts : List Token, ts.map (fun k => (k.t, k.label)) = TypeS.namesShape U segs ∧
      collectTypeRef U al fuel ps ⟨col, line, TypeS.namesText segs ++ ((if multi then c!"[]" else []) ++ rest)⟩ =
        some (some ⟨ps ++ ts, multi⟩, ⟨col + (TypeS.namesText segs ++ if multi then c!"[]" else []).length, line, rest⟩) := by
  intro segs
  induction segs with
  | nil => intro _ _ _ h; exact absurd rfl h
  | cons w r ih =>
    intro fuel ps col _ hw hf hne
    obtain ⟨fuel, rfl⟩ : ∃ f, fuel = f + 1 := ⟨fuel - 1, by simp at hf; omega⟩
    have hww := hw w List.mem_cons_self
    cases r with
    | nil =>
      have hsb : NotHead (identChar U al) ((if multi then c!"[]" else []) ++ rest) := by
        cases multi with
        | false => exact (hr rfl).ident
        | true =>
          intro c hc
          cases hc
          unfold identChar
          rw [U.alnum_ascii _ (by decide)]
          cases al <;> decide
      refine ⟨if w = [] then [] else [Token.named (tokenType U w) line col 0 w], ?_, ?_⟩
      · by_cases h : w = [] <;> simp [h, TypeS.namesShape, Token.named]
      · have hi := collectIdent_word w _ col line hww hsb
        change collectTypeRef U al (fuel + 1) ps ⟨col, line, w ++ _⟩ = some (_, ⟨col + (w ++ _).length, _, _⟩)
        simp only [collectTypeRef, hi, peek_eq]
        have hps : (if w.isEmpty = true then ps else ps ++ [Token.named (tokenType U w) line col 0 w]) =
            ps ++ (if w = [] then [] else [Token.named (tokenType U w) line col 0 w]) := by
          cases w <;> simp
        have hpe : (ps ++ (if w = [] then [] else [Token.named (tokenType U w) line col 0 w])).isEmpty = false := by
          cases w with
          | nil =>
            rcases hne with h | h
            · cases ps with
              | nil => exact absurd rfl h
              | cons _ _ => rfl
            · exact absurd rfl h
          | cons _ _ => simp
        cases multi with
        | false =>
          have hst := hr rfl
          have h1 : rest.head? ≠ some '\\' := by
            intro h
            have := hst _ h
            simp at this
          have h2 : rest.head? ≠ some '[' := by
            intro h
            have := hst _ h
            simp at this
          simp only [Bool.false_eq_true, if_false, List.nil_append, h1, h2, hps, parts, hpe, List.append_nil]
        | true =>
          simp only [if_true, List.cons_append, List.nil_append, List.head?_cons, hps]
          rw [if_neg (by decide), advance_plain (by decide)]
          simp only
          rw [advance_plain (by decide)]
          simp only [if_true, parts, hpe, Bool.false_eq_true, if_false, List.length_append, List.length_cons, List.length_nil]
          rfl
    | cons w' r =>
      obtain ⟨ts, h1, h2⟩ := ih fuel ((ps ++ if w = [] then [] else [Token.named (tokenType U w) line col 0 w]) ++
        [Token.new .namespaceSeparator line col 0]) (col + w.length + 1) (by simp) (fun x h => hw x (List.mem_cons_of_mem _ h))
        (by simp at hf ⊢; omega) (.inl (by simp))
      refine ⟨(if w = [] then [] else [Token.named (tokenType U w) line col 0 w]) ++
        [Token.new .namespaceSeparator line col 0] ++ ts, ?_, ?_⟩
      · rw [List.map_append, h1]
        by_cases h : w = [] <;> simp [h, TypeS.namesShape, Token.named, Token.new]
      · have hi := collectIdent_word w ('\\' :: (TypeS.namesText (w' :: r) ++ ((if multi then c!"[]" else []) ++ rest))) col line hww (by
          intro c hc
          cases hc
          unfold identChar
          rw [U.alnum_ascii _ (by decide)]
          cases al <;> decide)
        have ht : TypeS.namesText (w :: w' :: r) = w ++ '\\' :: TypeS.namesText (w' :: r) := rfl
        rw [ht]
        simp only [List.append_assoc, List.cons_append, collectTypeRef, hi]
        have hps : (if w.isEmpty = true then ps else ps ++ [Token.named (tokenType U w) line col 0 w]) =
            ps ++ (if w = [] then [] else [Token.named (tokenType U w) line col 0 w]) := by
          cases w <;> simp
        simp only [peek_eq, List.head?_cons, if_true, hps]
        rw [advance_plain (by decide)]
        simp only
        rw [h2]
        have hl : col + w.length + 1 + (TypeS.namesText (w' :: r) ++ if multi then c!"[]" else []).length =
            col + (w ++ '\\' :: (TypeS.namesText (w' :: r) ++ if multi then c!"[]" else [])).length := by
          simp only [List.length_append, List.length_cons]
          omega
        simp only [hl, List.append_assoc]
        rfl

theorem namesText_length : ∀ segs : List Text, segs.length ≤ (TypeS.namesText segs).length + 1
  | [] => by simp
  | [w] => by simp
  | w :: w' :: r => by
    have := namesText_length (w' :: r)
    have h : TypeS.namesText (w :: w' :: r) = w ++ '\\' :: TypeS.namesText (w' :: r) := rfl
    rw [h]
    simp only [List.length_append, List.length_cons] at this ⊢
    omega

theorem typeRef_reads {al : Bool} {t : TypeS} (h : t.Ok U al) (rest : Text) (col line : Nat) (hr : Stop U al rest) :
    ∃ x : TypeRef, shapeOf x = t.shape U ∧
      collectTypeRef U al ((t.text ++ rest).length + 1) [] ⟨col, line, t.text ++ rest⟩ =
        some (some x, ⟨col + t.text.length, line, rest⟩) := by
  have hl := namesText_length t.segs
  obtain ⟨ts, h1, h2⟩ := collectTypeRef_reads t.multi rest line (fun _ => hr) t.segs ((t.text ++ rest).length + 1) [] col h.1 h.2.2
    (by simp only [TypeS.text, List.length_append]; omega) (.inr h.2.1)
  refine ⟨⟨ts, t.multi⟩, ?_, ?_⟩
  · simp only [shapeOf, TypeS.shape, h1]
  · rw [← List.append_assoc] at h2
    exact h2

theorem typesText_length : ∀ tys : List TypeS, tys.length ≤ (typesText tys).length + 1
  | [] => by simp
  | [w] => by simp
  | w :: w' :: r => by
    have := typesText_length (w' :: r)
    have h : typesText (w :: w' :: r) = w.text ++ '|' :: typesText (w' :: r) := rfl
    rw [h]
    simp only [List.length_append, List.length_cons] at this ⊢
    omega

/-- The types end in front of such a text. -/
def StopTypes (U : Unicode) (al : Bool) (rest : Text) : Prop := Stop U al rest ∧ NotHead (· = '|') rest

theorem collectTypes_reads {al : Bool} (rest : Text) (line : Nat) (hr : StopTypes U al rest) :
    ∀ (tys : List TypeS) (fuel : Nat) (acc : List TypeRef) (col : Nat), (∀ t ∈ tys, t.Ok U al) → tys.length ≤ fuel → fuel ≠ 0 →
    ∃ ts : List TypeRef, ts.map shapeOf = tys.map (TypeS.shape U) ∧
      collectTypes U al fuel acc ⟨col, line, typesText tys ++ rest⟩ =
        some (acc ++ ts, ⟨col + (typesText tys).length, line, rest⟩) := by
  intro tys
  induction tys with
  | nil =>
    intro fuel acc col _ _ hf
    obtain ⟨fuel, rfl⟩ : ∃ f, fuel = f + 1 := ⟨fuel - 1, by omega⟩
    refine ⟨[], rfl, ?_⟩
    have hi := collectIdent_word (U := U) (al := al) [] rest col line (fun _ h => nomatch h) hr.1.ident
    simp only [List.nil_append] at hi
    have h1 : rest.head? ≠ some '\\' := by
      intro h
      have := hr.1 _ h
      simp at this
    have h2 : rest.head? ≠ some '[' := by
      intro h
      have := hr.1 _ h
      simp at this
    simp only [typesText, List.nil_append, collectTypes, collectTypeRef, hi, peek_eq, h1, h2, if_false, List.isEmpty_nil, if_true, parts,
      Option.bind_eq_bind, Option.bind_some, List.append_nil, List.length_nil, Nat.add_zero]
  | cons t r ih =>
    intro fuel acc col ht hf hf0
    obtain ⟨fuel, rfl⟩ : ∃ f, fuel = f + 1 := ⟨fuel - 1, by omega⟩
    cases r with
    | nil =>
      obtain ⟨x, h1, h2⟩ := typeRef_reads (ht t List.mem_cons_self) rest col line hr.1
      refine ⟨[x], by simp [h1], ?_⟩
      have h3 : rest.head? ≠ some '|' := by
        intro h
        have := hr.2 _ h
        simp at this
      change collectTypes U al (fuel + 1) acc ⟨col, line, t.text ++ rest⟩ = some (_, ⟨col + t.text.length, _, _⟩)
      simp only [collectTypes, h2, Option.bind_eq_bind, Option.bind_some, peek_eq, h3, if_false]
    | cons t' r =>
      obtain ⟨x, h1, h2⟩ := typeRef_reads (ht t List.mem_cons_self) ('|' :: (typesText (t' :: r) ++ rest)) col line (by
        intro c hc
        cases hc
        unfold identChar
        dsimp only
        rw [U.alnum_ascii _ (by decide)]
        cases al <;> decide)
      obtain ⟨ts, h3, h4⟩ := ih fuel (acc ++ [x]) (col + t.text.length + 1) (fun y h => ht y (List.mem_cons_of_mem _ h))
        (by simp only [List.length_cons] at hf ⊢; omega) (by simp only [List.length_cons] at hf; omega)
      refine ⟨x :: ts, by rw [List.map_cons, h3, h1]; rfl, ?_⟩
      have htt : typesText (t :: t' :: r) = t.text ++ '|' :: typesText (t' :: r) := rfl
      rw [htt, List.append_assoc, List.cons_append]
      have hl : col + t.text.length + 1 + (typesText (t' :: r)).length = col + (t.text ++ '|' :: typesText (t' :: r)).length := by
        simp only [List.length_append, List.length_cons]
        omega
      rw [← hl]
      simp only [collectTypes, h2, Option.bind_eq_bind, Option.bind_some, peek_eq, List.head?_cons, if_true]
      rw [advance_plain (by decide)]
      simp only
      rw [h4]
      simp only [List.append_assoc, List.cons_append, List.nil_append]

theorem typeText_head {al : Bool} {t : TypeS} (h : t.Ok U al) : ∃ c r, t.text = c :: r ∧ U.isSpace c = false := by
  obtain ⟨segs, multi⟩ := t
  obtain ⟨h1, h2, h3⟩ := h
  simp only at h1 h2 h3
  match segs, h1, h2, h3 with
  | [[]], _, h2, _ => exact absurd rfl h2
  | [c :: w], _, _, h3 => exact ⟨c, _, rfl, (h3 _ List.mem_cons_self c List.mem_cons_self).2⟩
  | [] :: w' :: r, _, _, _ => exact ⟨'\\', _, rfl, by rw [U.space_ascii _ (by decide)]; decide⟩
  | (c :: w) :: w' :: r, _, _, h3 => exact ⟨c, _, rfl, (h3 _ List.mem_cons_self c List.mem_cons_self).2⟩

theorem typesText_head {al : Bool} {t : TypeS} {r : List TypeS} (h : t.Ok U al) (x : Text) :
    NotHead U.isSpace (typesText (t :: r) ++ x) := by
  obtain ⟨c, w, h1, h2⟩ := typeText_head h
  intro d hd
  have : (typesText (t :: r) ++ x).head? = some c := by
    cases r with
    | nil =>
      change (t.text ++ x).head? = _
      rw [h1]; rfl
    | cons t' r =>
      have htt : typesText (t :: t' :: r) = t.text ++ '|' :: typesText (t' :: r) := rfl
      rw [htt, h1]; rfl
  rw [this] at hd
  cases hd
  exact h2

theorem stop_blank {al : Bool} {b : Text} (hb : IsBlank b) (hne : b ≠ []) (x : Text) : StopTypes U al (b ++ x) := by
  cases b with
  | nil => exact absurd rfl hne
  | cons c b =>
    have hi := blank_ident (U := U) (al := al) hb c List.mem_cons_self
    have hc := hb c List.mem_cons_self
    refine ⟨?_, ?_⟩
    · intro d hd
      cases hd
      simp only [hi, Bool.false_or]
      rcases hc with rfl | rfl <;> decide
    · intro d hd
      cases hd
      rcases hc with rfl | rfl <;> decide

theorem stop_dollar (x : Text) : StopTypes U false ('$' :: x) := by
  refine ⟨?_, ?_⟩
  · intro d hd
    cases hd
    unfold identChar
    dsimp only
    rw [U.alnum_ascii _ (by decide)]
    decide
  · intro d hd
    cases hd
    decide

/-- The line breaks of `advance`. -/
def codeBreak (c : Char) : Bool := c = '\n' || c = '\r'

theorem place_append (brk : Char → Bool) (p : Nat × Nat) (a b : Text) : place brk p (a ++ b) = place brk (place brk p a) b := by
  simp [place, List.foldl_append]

theorem place_plain {t : Text} (h : ∀ c ∈ t, c ≠ '\n' ∧ c ≠ '\r') (l c : Nat) : place codeBreak (l, c) t = (l, c + t.length) := by
  induction t generalizing c with
  | nil => rfl
  | cons x t ih =>
    have hx := h x List.mem_cons_self
    have hb : codeBreak x = false := by simp [codeBreak, hx]
    have := ih (fun c hc => h c (List.mem_cons_of_mem _ hc)) (c + 1)
    unfold place at this ⊢
    simp only [List.foldl_cons, hb, Bool.false_eq_true, if_false, this, List.length_cons]
    congr 1
    omega

/-- The state at a place. -/
def «at» (p : Nat × Nat) (t : Text) : DSt := ⟨p.2, p.1, t⟩

theorem advance_at (p : Nat × Nat) (c : Char) (t : Text) : advance («at» p (c :: t)) = (some c, «at» (place codeBreak p [c]) t) := by
  unfold advance «at» place codeBreak
  by_cases h : c = '\n' ∨ c = '\r'
  · rcases h with rfl | rfl <;> rfl
  · simp [h]

theorem skipBlanks_space (b rest : Text) (p : Nat × Nat) (hb : ∀ c ∈ b, U.isSpace c = true) (hr : NotHead U.isSpace rest) :
    skipBlanks U («at» p (b ++ rest)) = «at» (place codeBreak p b) rest := by
  unfold skipBlanks
  change skipBlanksOn U (b ++ rest) _ = _
  induction b generalizing p with
  | nil =>
    cases rest with
    | nil => rfl
    | cons c r =>
      have := hr c rfl
      simp [skipBlanksOn, this, place]
  | cons c b ih =>
    simp only [List.cons_append, skipBlanksOn, hb c List.mem_cons_self, if_true]
    rw [advance_at, ih _ fun c h => hb c (List.mem_cons_of_mem _ h)]
    rfl

/-- The description is read up to the end of the line. -/
theorem collectDescr_reads {descr : Text} {nl : Bool} {rest : Text} (h : '\n' ∉ descr) (hn : nl = false → rest = []) :
    ∀ p : Nat × Nat, collectDescr («at» p (descr ++ (eol nl ++ rest))) = (descr, «at» (place codeBreak p (descr ++ eol nl)) rest) := by
  unfold collectDescr
  intro p
  change collectDescrOn (descr ++ (eol nl ++ rest)) _ = _
  induction descr generalizing p with
  | nil =>
    cases nl with
    | false =>
      rw [hn rfl]
      rfl
    | true => rfl
  | cons c d ih =>
    have hc : c ≠ '\n' := fun hh => h (hh ▸ List.mem_cons_self)
    have hd : '\n' ∉ d := fun hh => h (List.mem_cons_of_mem _ hh)
    simp only [List.cons_append, collectDescrOn, if_neg hc]
    rw [advance_at]
    simp only
    rw [ih hd]
    rfl

theorem blank_break {b : Text} (h : IsBlank b) : ∀ c ∈ b, c ≠ '\n' ∧ c ≠ '\r' := by
  intro c hc
  rcases h c hc with rfl | rfl <;> decide

theorem word_break {al : Bool} {w : Text} (h : IsWord U al w) : ∀ c ∈ w, c ≠ '\n' ∧ c ≠ '\r' :=
  fun c hc => ident_not_break (h c hc).1

theorem namesText_break {al : Bool} : ∀ {segs : List Text}, (∀ w ∈ segs, IsWord U al w) → ∀ c ∈ TypeS.namesText segs, c ≠ '\n' ∧ c ≠ '\r'
  | [], _, _, h => nomatch h
  | [w], h, c, hc => word_break (h w List.mem_cons_self) c hc
  | w :: w' :: r, h, c, hc => by
    have ht : TypeS.namesText (w :: w' :: r) = w ++ '\\' :: TypeS.namesText (w' :: r) := rfl
    rw [ht] at hc
    simp only [List.mem_append, List.mem_cons] at hc
    rcases hc with hc | rfl | hc
    · exact word_break (h w List.mem_cons_self) c hc
    · decide
    · exact namesText_break (fun x hx => h x (List.mem_cons_of_mem _ hx)) c hc

theorem typeText_break {al : Bool} {t : TypeS} (h : t.Ok U al) : ∀ c ∈ t.text, c ≠ '\n' ∧ c ≠ '\r' := by
  intro c hc
  unfold TypeS.text at hc
  rw [List.mem_append] at hc
  rcases hc with hc | hc
  · exact namesText_break h.2.2 c hc
  · split at hc
    · simp only [List.mem_cons, List.not_mem_nil, or_false] at hc
      rcases hc with rfl | rfl <;> decide
    · cases hc

theorem typesText_break {al : Bool} : ∀ {tys : List TypeS}, (∀ t ∈ tys, t.Ok U al) → ∀ c ∈ typesText tys, c ≠ '\n' ∧ c ≠ '\r'
  | [], _, _, h => nomatch h
  | [t], h, c, hc => typeText_break (h t List.mem_cons_self) c hc
  | t :: t' :: r, h, c, hc => by
    have ht : typesText (t :: t' :: r) = t.text ++ '|' :: typesText (t' :: r) := rfl
    rw [ht] at hc
    simp only [List.mem_append, List.mem_cons] at hc
    rcases hc with hc | rfl | hc
    · exact typeText_break (h t List.mem_cons_self) c hc
    · decide
    · exact typesText_break (fun x hx => h x (List.mem_cons_of_mem _ hx)) c hc

theorem notHead_append_dollar (x : Text) : NotHead U.isSpace ('$' :: x) := by
  intro c hc
  cases hc
  rw [U.space_ascii _ (by decide)]
  decide

/-- A directive with a name, behind the blanks. -/
theorem directive_named {tys : List TypeS} {b2 name descr rest : Text} {nl : Bool} (ht : ∀ t ∈ tys, t.Ok U false)
    (hb : IsBlank b2) (hbt : b2 = [] ↔ tys = []) (hw : IsWord U false name) (hd : NotHead (identChar U false) (descr ++ (eol nl ++ rest)))
    (hn : '\n' ∉ descr) (hl : nl = false → rest = []) (p : Nat × Nat) :
    ∃ ts k, directive U false true («at» p (typesText tys ++ (b2 ++ '$' :: (name ++ (descr ++ (eol nl ++ rest)))))) =
        some (ts, k, descr, «at» (place codeBreak p (typesText tys ++ (b2 ++ '$' :: (name ++ (descr ++ eol nl))))) rest) ∧
        ts.map shapeOf = tys.map (TypeS.shape U) ∧ k.label = some name ∧ (k.line, k.col) = place codeBreak p (typesText tys ++ b2) := by
  obtain ⟨line, col⟩ := p
  have h0 : NotHead U.isSpace (typesText tys ++ (b2 ++ '$' :: (name ++ (descr ++ (eol nl ++ rest))))) := by
    cases tys with
    | nil =>
      rw [hbt.2 rfl]
      exact notHead_append_dollar _
    | cons t r => exact typesText_head (ht t List.mem_cons_self) _
  have hst : StopTypes U false (b2 ++ '$' :: (name ++ (descr ++ (eol nl ++ rest)))) := by
    cases b2 with
    | nil => exact stop_dollar _
    | cons c b => exact stop_blank hb (by simp) _
  have hlen := typesText_length tys
  obtain ⟨ts, h1, h2⟩ := collectTypes_reads _ line hst tys
    ((typesText tys ++ (b2 ++ '$' :: (name ++ (descr ++ (eol nl ++ rest))))).length + 1) [] col ht
    (by simp only [List.length_append]; omega) (by omega)
  have hp0 : place codeBreak (line, col) (typesText tys ++ b2) = (line, col + (typesText tys).length + b2.length) := by
    rw [place_append, place_plain (typesText_break ht), place_plain (blank_break hb)]
  have hp : place codeBreak (line, col) (typesText tys ++ (b2 ++ '$' :: (name ++ (descr ++ eol nl)))) =
      place codeBreak (line, col + (typesText tys).length + b2.length + 1 + name.length) (descr ++ eol nl) := by
    rw [← List.append_assoc, place_append, hp0,
      show '$' :: (name ++ (descr ++ eol nl)) = ('$' :: name) ++ (descr ++ eol nl) from rfl, place_append,
      place_plain (t := '$' :: name)]
    · simp only [List.length_cons]
      congr 2
      omega
    · intro c hc
      cases hc with
      | head => decide
      | tail _ hc => exact word_break hw c hc
  have h3 := collectDescr_reads hn hl (line, col + (typesText tys).length + b2.length + 1 + name.length)
  rw [← hp] at h3
  refine ⟨ts, Token.named .variable line (col + (typesText tys).length + b2.length) 0 name, ?_, h1, rfl, hp0.symm⟩
  generalize place codeBreak (line, col) (typesText tys ++ (b2 ++ '$' :: (name ++ (descr ++ eol nl)))) = q at h3
  unfold «at» at h3 ⊢
  unfold directive
  simp only at h3 ⊢
  simp only [skipBlanks_none _ _ _ h0, h2, Option.bind_eq_bind, Option.bind_some, List.nil_append,
    skipBlanks_blank b2 _ _ _ hb (notHead_append_dollar (U := U) _), collectName, peek_eq, List.head?_cons, if_true,
    advance_plain (c := '$') (by decide), collectIdent_word name _ _ _ hw hd, h3]

/-- A directive without a name, behind the blanks. -/
theorem directive_unnamed {tys : List TypeS} {b2 descr rest : Text} {nl : Bool} (hne : tys ≠ []) (ht : ∀ t ∈ tys, t.Ok U true)
    (hb : IsBlank b2) (hb0 : b2 ≠ []) (hd0 : descr ≠ []) (hd : NotHead U.isSpace descr)
    (hn : '\n' ∉ descr) (hl : nl = false → rest = []) (p : Nat × Nat) :
    ∃ ts k, directive U true false («at» p (typesText tys ++ (b2 ++ (descr ++ (eol nl ++ rest))))) =
        some (ts, k, descr, «at» (place codeBreak p (typesText tys ++ (b2 ++ (descr ++ eol nl)))) rest) ∧
        ts.map shapeOf = tys.map (TypeS.shape U) := by
  obtain ⟨line, col⟩ := p
  have h0 : NotHead U.isSpace (typesText tys ++ (b2 ++ (descr ++ (eol nl ++ rest)))) := by
    cases tys with
    | nil => exact absurd rfl hne
    | cons t r => exact typesText_head (ht t List.mem_cons_self) _
  have hsp : NotHead U.isSpace (descr ++ (eol nl ++ rest)) := by
    cases descr with
    | nil => exact absurd rfl hd0
    | cons c d => exact fun x hx => hd x (by simpa using hx)
  have hlen := typesText_length tys
  obtain ⟨ts, h1, h2⟩ := collectTypes_reads (b2 ++ (descr ++ (eol nl ++ rest))) line (stop_blank hb hb0 _) tys
    ((typesText tys ++ (b2 ++ (descr ++ (eol nl ++ rest)))).length + 1) [] col ht
    (by simp only [List.length_append]; omega) (by omega)
  have hp : place codeBreak (line, col) (typesText tys ++ (b2 ++ (descr ++ eol nl))) =
      place codeBreak (line, col + (typesText tys).length + b2.length) (descr ++ eol nl) := by
    rw [place_append, place_plain (typesText_break ht), place_append, place_plain (blank_break hb)]
  have h3 := collectDescr_reads hn hl (line, col + (typesText tys).length + b2.length)
  rw [← hp] at h3
  refine ⟨ts, Token.named .variable line (col + (typesText tys).length + b2.length) 0 [], ?_, h1⟩
  generalize place codeBreak (line, col) (typesText tys ++ (b2 ++ (descr ++ eol nl))) = q at h3
  unfold «at» at h3 ⊢
  unfold directive
  simp only at h3 ⊢
  simp only [skipBlanks_none _ _ _ h0, h2, Option.bind_eq_bind, Option.bind_some, List.nil_append,
    skipBlanks_blank b2 _ _ _ hb hsp, h3, Bool.false_eq_true, if_false]

/-- What reading an item that starts at a place adds. -/
structure Adds (U : Unicode) (p : Nat × Nat) (i : Item) (a a' : Acc) : Prop where
  params : a'.params.map (saidBy .param) = a.params.map (saidBy .param) ++ (saidNamed U codeBreak .param p i).map some
  vars : a'.varDocs.map (saidBy .var) = a.varDocs.map (saidBy .var) ++ (saidNamed U codeBreak .var p i).map some
  properties : a'.properties.map (saidBy .property) = a.properties.map (saidBy .property) ++ (saidNamed U codeBreak .property p i).map some
  returns : a'.returnType.map returnedBy = a.returnType.map returnedBy ++ (saidReturn U i).toList.map some
  deprecated : a'.isDeprecated = (a.isDeprecated || isDeprecated i)
  description : a'.description = a.description ++ DocBlock.description i

theorem someTypes_getD (ts : List TypeRef) : (someTypes ts).getD [] = ts := by
  unfold someTypes
  cases ts <;> rfl

theorem collectIdent_at {al : Bool} {w rest : Text} (hw : IsWord U al w) (hr : NotHead (identChar U al) rest) (p : Nat × Nat) :
    collectIdent U al («at» p (w ++ rest)) = (w, «at» (place codeBreak p w) rest) := by
  obtain ⟨l, c⟩ := p
  rw [place_plain (word_break hw)]
  exact collectIdent_word w rest c l hw hr

theorem blank_notHead {b : Text} (hb : IsBlank b) (hne : b ≠ []) (x : Text) : NotHead (identChar U false) (b ++ x) :=
  (stop_blank hb hne x).1.ident

theorem kw_word (U : Unicode) : ∀ w ∈ known, IsWord U false w := by
  intro w hw c hc
  have : c.toNat < 128 ∧ c.isAlphanum = true ∧ asciiSpace c = false := by
    revert c
    revert w
    decide
  refine ⟨?_, ?_⟩
  · unfold identChar
    rw [U.alnum_ascii c this.1, this.2.1]
    rfl
  · rw [U.space_ascii c this.1]
    exact this.2.2

theorem types_notHead {al : Bool} {tys : List TypeS} {x : Text} (ht : ∀ t ∈ tys, t.Ok U al) (hx : tys = [] → NotHead U.isSpace x) :
    NotHead U.isSpace (typesText tys ++ x) := by
  cases tys with
  | nil => exact hx rfl
  | cons t r => exact typesText_head (ht t List.mem_cons_self) _

/-- Reading a directive behind its `@`. -/
theorem atSign_reads {rest : Text} {i : Item} (h : i.Ok U rest) (p : Nat × Nat) (a : Acc) {x : Text} (hx : i.text = '@' :: x)
    (hf : ∀ t, i ≠ .free t) :
    ∃ a', atSign U a («at» (place codeBreak p ['@']) (x ++ rest)) = some (a', «at» (place codeBreak p i.text) rest) ∧ Adds U p i a a' := by
  cases i with
  | free t => exact absurd rfl (hf t)
  | named kw b1 tys b2 name descr nl =>
    obtain ⟨hb1, hb1n, ht, hb2, hbt, hw, hd, hn, hl⟩ := h
    cases hx
    have hk := kw_word U kw.text (by cases kw <;> decide)
    have hsp : NotHead U.isSpace (typesText tys ++ (b2 ++ '$' :: (name ++ (descr ++ (eol nl ++ rest))))) :=
      types_notHead ht fun h0 => by rw [hbt.2 h0]; exact notHead_append_dollar _
    have hi := collectIdent_at hk (blank_notHead hb1 hb1n (typesText tys ++ (b2 ++ '$' :: (name ++ (descr ++ (eol nl ++ rest)))))) (place codeBreak p ['@'])
    have hs := skipBlanks_space (U := U) b1 _ (place codeBreak (place codeBreak p ['@']) kw.text) (blank_space hb1) hsp
    obtain ⟨ts, k, h1, h2, h3, h4⟩ := directive_named ht hb2 hbt hw hd hn hl (place codeBreak (place codeBreak (place codeBreak p ['@']) kw.text) b1)
    have hp1 : place codeBreak (place codeBreak (place codeBreak (place codeBreak p ['@']) kw.text) b1) (typesText tys ++ b2) =
        place codeBreak p ('@' :: (kw.text ++ (b1 ++ (typesText tys ++ b2)))) := by
      simp only [← place_append]
      simp only [List.cons_append, List.nil_append, List.append_assoc]
    have hp2 : place codeBreak (place codeBreak (place codeBreak (place codeBreak p ['@']) kw.text) b1)
        (typesText tys ++ (b2 ++ '$' :: (name ++ (descr ++ eol nl)))) =
        place codeBreak p (Item.text (.named kw b1 tys b2 name descr nl)) := by
      simp only [← place_append]
      simp only [List.cons_append, List.nil_append, List.append_assoc, Item.text]
    rw [hp1] at h4
    rw [hp2] at h1
    have ha : kw.text ++ (b1 ++ (typesText tys ++ (b2 ++ '$' :: (name ++ (descr ++ eol nl))))) ++ rest =
        kw.text ++ (b1 ++ (typesText tys ++ (b2 ++ '$' :: (name ++ (descr ++ (eol nl ++ rest)))))) := by
      simp only [List.append_assoc, List.cons_append]
    rw [ha]
    unfold atSign
    simp only [hi, hs]
    generalize place codeBreak p (Item.text (.named kw b1 tys b2 name descr nl)) = q at *
    cases kw with
    | param =>
      refine ⟨{ a with params := a.params ++ [.docCommentParam k (some ts) descr] }, ?_, ?_⟩
      · rw [if_pos (show Kw.text .param = c!"param" from rfl), h1]
        rfl
      · constructor <;> simp [saidNamed, saidBy, h2, h3, h4, saidReturn, isDeprecated, DocBlock.description]
    | var =>
      refine ⟨{ a with varDocs := a.varDocs ++ [.docCommentVar k (some ts) descr] }, ?_, ?_⟩
      · rw [if_neg (by decide), if_neg (by decide), if_pos (show Kw.text .var = c!"var" from rfl), h1]
        rfl
      · constructor <;> simp [saidNamed, saidBy, h2, h3, h4, saidReturn, isDeprecated, DocBlock.description]
    | property =>
      refine ⟨{ a with properties := a.properties ++ [.docCommentProperty k (someTypes ts) descr] }, ?_, ?_⟩
      · rw [if_neg (by decide), if_neg (by decide), if_neg (by decide), if_neg (by decide), if_pos (show Kw.text .property = c!"property" from rfl), h1]
        rfl
      · constructor <;> simp [saidNamed, saidBy, h2, h3, h4, saidReturn, isDeprecated, DocBlock.description, someTypes_getD]
  | ret b1 tys b2 descr nl =>
    obtain ⟨hb1, hb1n, hne, ht, hb2, hb2n, hd0, hd, hn, hl⟩ := h
    cases hx
    have hk := kw_word U c!"return" (by decide)
    have hsp : NotHead U.isSpace (typesText tys ++ (b2 ++ (descr ++ (eol nl ++ rest)))) :=
      types_notHead ht fun h0 => absurd h0 hne
    have hi := collectIdent_at hk (blank_notHead hb1 hb1n (typesText tys ++ (b2 ++ (descr ++ (eol nl ++ rest))))) (place codeBreak p ['@'])
    have hs := skipBlanks_space (U := U) b1 _ (place codeBreak (place codeBreak p ['@']) c!"return") (blank_space hb1) hsp
    obtain ⟨ts, k, h1, h2⟩ := directive_unnamed hne ht hb2 hb2n hd0 hd hn hl (place codeBreak (place codeBreak (place codeBreak p ['@']) c!"return") b1)
    have hp2 : place codeBreak (place codeBreak (place codeBreak (place codeBreak p ['@']) c!"return") b1)
        (typesText tys ++ (b2 ++ (descr ++ eol nl))) = place codeBreak p (Item.text (.ret b1 tys b2 descr nl)) := by
      simp only [← place_append]
      simp only [List.cons_append, List.nil_append, Item.text]
    rw [hp2] at h1
    have ha : c!"return" ++ (b1 ++ (typesText tys ++ (b2 ++ (descr ++ eol nl)))) ++ rest =
        c!"return" ++ (b1 ++ (typesText tys ++ (b2 ++ (descr ++ (eol nl ++ rest))))) := by
      simp only [List.append_assoc, List.cons_append]
    rw [ha]
    unfold atSign
    simp only [hi, hs]
    generalize place codeBreak p (Item.text (.ret b1 tys b2 descr nl)) = q at *
    refine ⟨{ a with returnType := a.returnType ++ [.docCommentReturn (someTypes ts) descr] }, ?_, ?_⟩
    · rw [if_neg (by decide), if_pos trivial, h1]
      rfl
    · constructor <;> simp [saidNamed, returnedBy, h2, saidReturn, isDeprecated, DocBlock.description, someTypes_getD]
  | deprecated space =>
    obtain ⟨hs0, hr, hr'⟩ := h
    cases hx
    have hk := kw_word U c!"deprecated" (by decide)
    have hi := collectIdent_at hk hr' (place codeBreak p ['@'])
    have hs := skipBlanks_space (U := U) space _ (place codeBreak (place codeBreak p ['@']) c!"deprecated") (fun c h => (hs0 c h).1) hr
    have hp2 : place codeBreak (place codeBreak (place codeBreak p ['@']) c!"deprecated") space =
        place codeBreak p (Item.text (.deprecated space)) := by
      simp only [← place_append]
      simp only [List.cons_append, List.nil_append, Item.text]
    rw [hp2] at hs
    rw [List.append_assoc]
    unfold atSign
    simp only [hi, hs]
    generalize place codeBreak p (Item.text (.deprecated space)) = q at *
    refine ⟨{ a with isDeprecated := true }, ?_, ?_⟩
    · rw [if_neg (by decide), if_neg (by decide), if_neg (by decide), if_pos trivial]
    · constructor <;> simp [saidNamed, saidReturn, isDeprecated, DocBlock.description]
  | other w space =>
    obtain ⟨hw, hwk, hs0, hr, hr'⟩ := h
    cases hx
    have hi := collectIdent_at hw hr' (place codeBreak p ['@'])
    have hs := skipBlanks_space (U := U) space _ (place codeBreak (place codeBreak p ['@']) w) (fun c h => (hs0 c h).1) hr
    have hp2 : place codeBreak (place codeBreak (place codeBreak p ['@']) w) space =
        place codeBreak p (Item.text (.other w space)) := by
      simp only [← place_append]
      simp only [List.cons_append, List.nil_append, Item.text]
    rw [hp2] at hs
    rw [List.append_assoc]
    unfold atSign
    simp only [hi, hs]
    generalize place codeBreak p (Item.text (.other w space)) = q at *
    refine ⟨a, ?_, ?_⟩
    · simp only [known, List.mem_cons, List.not_mem_nil, or_false, not_or] at hwk
      rw [if_neg hwk.1, if_neg hwk.2.1, if_neg hwk.2.2.1, if_neg hwk.2.2.2.1, if_neg hwk.2.2.2.2]
    · constructor <;> simp [saidNamed, saidReturn, isDeprecated, DocBlock.description]

/-- Reading free text. -/
theorem scanLoop_free {t : Text} (h : '@' ∉ t) (rest : Text) : ∀ (fuel : Nat) (a : Acc) (p : Nat × Nat),
    scanLoop U (fuel + t.length) a («at» p (t ++ rest)) =
      scanLoop U fuel { a with description := a.description ++ t.filter (· ≠ '*') } («at» (place codeBreak p t) rest) := by
  induction t with
  | nil =>
    intro fuel a p
    simp [place]
  | cons c t ih =>
    intro fuel a p
    have hc : c ≠ '@' := fun hh => h (hh ▸ List.mem_cons_self)
    have ih := ih fun hh => h (List.mem_cons_of_mem _ hh)
    rw [List.length_cons, ← Nat.add_assoc, scanLoop, List.cons_append, advance_at]
    simp only [if_neg hc]
    by_cases hs : c = '*'
    · rw [if_pos hs, ih]
      subst hs
      rfl
    · rw [if_neg hs, ih]
      simp [hs, place]

/-- What reading items that start at a place adds. -/
structure AddsAll (U : Unicode) (p : Nat × Nat) (is : List Item) (a a' : Acc) : Prop where
  params : a'.params.map (saidBy .param) = a.params.map (saidBy .param) ++ (said U codeBreak .param p is).map some
  vars : a'.varDocs.map (saidBy .var) = a.varDocs.map (saidBy .var) ++ (said U codeBreak .var p is).map some
  properties : a'.properties.map (saidBy .property) = a.properties.map (saidBy .property) ++ (said U codeBreak .property p is).map some
  returns : a'.returnType.map returnedBy = a.returnType.map returnedBy ++ (is.filterMap (saidReturn U)).map some
  deprecated : a'.isDeprecated = (a.isDeprecated || is.any isDeprecated)
  description : a'.description = a.description ++ is.flatMap DocBlock.description

theorem AddsAll.cons {p : Nat × Nat} {i : Item} {is : List Item} {a b c : Acc} (h1 : Adds U p i a b)
    (h2 : AddsAll U (place codeBreak p i.text) is b c) : AddsAll U p (i :: is) a c := by
  constructor
  · rw [h2.params, h1.params]; simp [said]
  · rw [h2.vars, h1.vars]; simp [said]
  · rw [h2.properties, h1.properties]; simp [said]
  · rw [h2.returns, h1.returns]
    cases h : saidReturn U i <;> simp [h]
  · rw [h2.deprecated, h1.deprecated]; simp [Bool.or_assoc]
  · rw [h2.description, h1.description]; simp

theorem scanLoop_items : ∀ (is : List Item) (a : Acc) (p : Nat × Nat) (fuel : Nat), ItemsOk U is → (itemsText is).length < fuel →
    ∃ a', scanLoop U fuel a («at» p (itemsText is)) = some a' ∧ AddsAll U p is a a' := by
  intro is
  induction is with
  | nil =>
    intro a p fuel _ hf
    obtain ⟨fuel, rfl⟩ : ∃ f, fuel = f + 1 := ⟨fuel - 1, by simp [itemsText] at hf; omega⟩
    exact ⟨a, rfl, by constructor <;> simp [said]⟩
  | cons i is ih =>
    intro a p fuel hok hf
    obtain ⟨hi, his⟩ := hok
    have hlen : (itemsText (i :: is)).length = i.text.length + (itemsText is).length := by simp [itemsText]
    by_cases hfree : ∃ t, i = .free t
    · obtain ⟨t, rfl⟩ := hfree
      obtain ⟨a', h1, h2⟩ := ih { a with description := a.description ++ t.filter (· ≠ '*') } (place codeBreak p t) (fuel - t.length) his
        (by simp only [Item.text] at hlen; omega)
      refine ⟨a', ?_, AddsAll.cons (b := { a with description := a.description ++ t.filter (· ≠ '*') }) ?_ h2⟩
      · have := scanLoop_free (U := U) hi (itemsText is) (fuel - t.length) a p
        rw [Nat.sub_add_cancel (by simp only [Item.text] at hlen; omega), h1] at this
        exact this
      · constructor <;> simp [saidNamed, saidReturn, isDeprecated, DocBlock.description]
    · have hf' : ∀ t, i ≠ .free t := fun t h => hfree ⟨t, h⟩
      obtain ⟨x, hx⟩ : ∃ x, i.text = '@' :: x := by
        cases i with
        | free t => exact absurd rfl (hf' t)
        | _ => exact ⟨_, rfl⟩
      obtain ⟨b, h1, h2⟩ := atSign_reads hi p a hx hf'
      obtain ⟨fuel, rfl⟩ : ∃ f, fuel = f + 1 := ⟨fuel - 1, by omega⟩
      obtain ⟨a', h3, h4⟩ := ih b (place codeBreak p i.text) fuel his (by rw [hlen, hx] at hf; simp at hf; omega)
      refine ⟨a', ?_, AddsAll.cons h2 h4⟩
      rw [itemsText, hx, List.cons_append, scanLoop, advance_at]
      simp only [if_true, Option.bind_eq_bind, h1, Option.bind_some, h3]

/-! ### The theorems -/

/-- What a node of a doc comment says. -/
structure Contents where
  params : List (Option Said)
  vars : List (Option Said)
  properties : List (Option Said)
  returns : List (Option (List Shape × Text))
  deprecated : Bool
  description : Text
deriving DecidableEq

/-- What a node of a doc comment says. -/
def contents : Node → Option Contents
  | .docComment _ ret descr dep params vars props =>
    some ⟨params.map (saidBy .param), vars.map (saidBy .var), props.map (saidBy .property), ret.map returnedBy, dep, descr⟩
  | _ => none

/-- What items that start at a place say. -/
def saidItems (U : Unicode) (brk : Char → Bool) (p : Nat × Nat) (is : List Item) : Contents where
  params := (said U brk .param p is).map some
  vars := (said U brk .var p is).map some
  properties := (said U brk .property p is).map some
  returns := (is.filterMap (saidReturn U)).map some
  deprecated := is.any isDeprecated
  description := is.flatMap description

/-- **C22.** A doc comment made of items says exactly what the items say, each for itself and in their order: the types, the
name and the description of each directive, `@deprecated`, and the free text without stars. -/
theorem C22_directives_partial (U : Unicode) (comment : Token) (is : List Item) (hl : comment.label = some (itemsText is))
    (hok : ItemsOk U is) : ∃ n, docNode U comment = some n ∧
      contents n = some (saidItems U codeBreak (comment.line, comment.col + 2) is) := by
  obtain ⟨a', h1, h2⟩ := scanLoop_items is {} (comment.line, comment.col + 2) ((itemsText is).length + 1) hok (by omega)
  refine ⟨_, by
    unfold docNode
    rw [hl]
    change (scanLoop U ((itemsText is).length + 1) {} («at» (comment.line, comment.col + 2) (itemsText is))).bind _ = _
    rw [h1]
    rfl, ?_⟩
  simp only [contents, h2.params, h2.vars, h2.properties, h2.returns, h2.deprecated, h2.description, saidItems, List.map_nil,
    List.nil_append, Bool.false_or]

theorem place_newline {t : Text} (h : '\r' ∉ t) (p : Nat × Nat) : place codeBreak p t = place (· = '\n') p t := by
  induction t generalizing p with
  | nil => rfl
  | cons c t ih =>
    have hc : c ≠ '\r' := fun hh => h (hh ▸ List.mem_cons_self)
    have := ih fun hh => h (List.mem_cons_of_mem _ hh)
    have hb : codeBreak c = decide (c = '\n') := by simp [codeBreak, hc]
    unfold place at this ⊢
    rw [List.foldl_cons, this, hb]
    rfl

theorem said_newline (kw : Kw) : ∀ (is : List Item) (p : Nat × Nat), '\r' ∉ itemsText is →
    said U codeBreak kw p is = said U (· = '\n') kw p is
  | [], _, _ => rfl
  | i :: is, p, h => by
    simp only [itemsText, List.mem_append, not_or] at h
    rw [said, said, place_newline h.1, said_newline kw is _ h.2]
    congr 1
    cases i with
    | named kw' b1 tys b2 name descr nl =>
      simp only [saidNamed]
      split
      · rename_i hk
        subst hk
        rw [place_newline]
        intro hh
        apply h.1
        simp only [Item.text, List.mem_cons, List.mem_append] at hh ⊢
        grind
      · rfl
    | _ => rfl

/-- **C22.** In a text without carriage returns the token of each name points to the `$` of the name: line and column count
the line feeds and the characters of the comment in front of it. -/
theorem C22_places_partial (U : Unicode) (comment : Token) (is : List Item) (hl : comment.label = some (itemsText is))
    (hok : ItemsOk U is) (hr : '\r' ∉ itemsText is) : ∃ n, docNode U comment = some n ∧
      contents n = some (saidItems U (· = '\n') (comment.line, comment.col + 2) is) := by
  obtain ⟨n, h1, h2⟩ := C22_directives_partial U comment is hl hok
  refine ⟨n, h1, h2.trans ?_⟩
  simp only [saidItems, said_newline _ is _ hr]

/-- The test of `paramCommentFor`. -/
private def isParam (k : Token) (p : Node) : Bool :=
  match p with
  | .docCommentParam name _ _ => name.label.isSome && name.label == k.label
  | _ => false

/-- **C22.** The doc comment of a parameter is the first `@param` directive with its name. -/
theorem C22_param (c : Token) (ret : List Node) (descr : Text) (dep : Bool) (params vars props : List Node) (k : Token) (n : Text)
    (hk : k.label = some n) (hs : ∀ p ∈ params, ∃ x, saidBy .param p = some x) (p : Node) :
    paramCommentFor (some (.docComment c ret descr dep params vars props)) k = some p ↔
      ∃ before behind : List Node, params = before ++ p :: behind ∧ (∃ x, saidBy .param p = some x ∧ x.2.1 = n) ∧
        ∀ q ∈ before, ∀ x, saidBy .param q = some x → x.2.1 ≠ n := by
  have hsaid : ∀ q ∈ params, ∀ x, saidBy .param q = some x → (isParam k q = true ↔ x.2.1 = n) := by
    intro q _ x hx
    cases q with
    | docCommentParam name tys d =>
      cases tys with
      | none => simp [saidBy] at hx
      | some tys =>
        cases hn : name.label with
        | none => simp [saidBy, hn] at hx
        | some m =>
          simp only [saidBy, hn, Option.map_some, Option.some.injEq] at hx
          subst hx
          simp [isParam, hn, hk]
    | _ => simp [saidBy] at hx
  change params.find? (isParam k) = some p ↔ _
  rw [List.find?_eq_some_iff_append]
  constructor
  · rintro ⟨h1, as, bs, rfl, h2⟩
    refine ⟨as, bs, rfl, ?_, ?_⟩
    · obtain ⟨x, hx⟩ := hs p (by simp)
      exact ⟨x, hx, (hsaid p (by simp) x hx).1 h1⟩
    · intro q hq x hx he
      have := h2 q hq
      rw [(hsaid q (by simp [hq]) x hx).2 he] at this
      cases this
  · rintro ⟨as, bs, rfl, ⟨x, hx, he⟩, h2⟩
    refine ⟨(hsaid p (by simp) x hx).2 he, as, bs, rfl, ?_⟩
    intro q hq
    obtain ⟨y, hy⟩ := hs q (by simp [hq])
    have hn := h2 q hq y hy
    cases hp : isParam k q with
    | false => rfl
    | true => exact absurd ((hsaid q (by simp [hq]) y hy).1 hp) hn

/-! ### Examples and violations -/

/-- A doc comment with its text. -/
def docOf (t : Text) : Option Contents :=
  (docNode Unicode.ascii (Token.named .multilineComment 3 4 0 t)).bind contents

/-- The items of an example. -/
def exampleItems : List Item :=
  [.free c!"*\n * Text\n * ", .named .param c!" " [⟨[c!"", c!"A", c!"B"], true⟩, ⟨[c!"int"], false⟩] c!"\t" c!"x" c!" first" true,
   .free c!" * ", .named .param c!"  " [] [] c!"y" c!"" true, .free c!" * ", .other c!"see" c!" ", .free c!"b ",
   .deprecated c!"\n ", .free c!"* ", .ret c!" " [⟨[c!"$this"], false⟩] c!" " c!"it" true, .free c!" "]

/-- The condition of `C22_directives_partial` holds for an example with all kinds of items. -/
example : ItemsOk Unicode.ascii exampleItems ∧ '\r' ∉ itemsText exampleItems := by
  have h : ItemsOk Unicode.ascii exampleItems := by
    simp [exampleItems, ItemsOk, Item.Ok, itemsText, Item.text, TypeS.Ok, IsWord, IsBlank, NotHead, typesText, TypeS.text,
      TypeS.namesText, eol, Kw.text, known, identChar, Unicode.ascii, asciiSpace]
  exact ⟨h, by decide +kernel⟩

/-- The example is read as `C22_directives_partial` says. -/
example : docOf (itemsText exampleItems) = some (saidItems Unicode.ascii (· = '\n') (3, 6) exampleItems) := by decide +kernel

/-- **C22, violated.** A directive without a name or description behind its types swallows the next line: the blanks that are
skipped behind the types include the end of the line.  The `@param` is lost here, and its text is the description of the
`@return`. -/
theorem C22_violated : docOf c!"* @return int\n * @param string $x\n " =
    some ⟨[], [], [], [some ([([(.typeInt, some c!"int")], false)], c!"* @param string $x")], false, c!"  "⟩ := by
  decide +kernel

/-- **C22, violated.** Likewise a `@param` without a name swallows a `@return`. -/
theorem C22_violated_return : docOf c!"* @param int\n * @return string s\n " =
    some ⟨[some ([([(.typeInt, some c!"int")], false)], [], c!"* @return string s", (4, 1))], [], [], [], false, c!"  "⟩ := by
  decide +kernel

/-- **C22, violated.** Types that are not names lose the name of the parameter: arrays of arrays, nullable types, variadic
parameters and references. -/
theorem C22_violated_types : docOf c!"* @param int[][] $x\n@param ?int $y\n@param int ...$z\n@param int &$w" =
    some ⟨[some ([([(.typeInt, some c!"int")], true)], [], c!"[] $x", (3, 20)), some ([], [], c!"?int $y", (4, 7)),
      some ([([(.typeInt, some c!"int")], false)], [], c!"...$z", (5, 11)),
      some ([([(.typeInt, some c!"int")], false)], [], c!"&$w", (6, 11))], [], [], [], false, c!" "⟩ := by
  decide +kernel

/-- **C22, violated.** A line that ends with carriage return and line feed counts twice: the name on the second line of the
comment is reported on the third. -/
theorem C22_violated_crlf : docOf c!"*\r\n * @var int $x\r\n " =
    some ⟨[], [some ([([(.typeInt, some c!"int")], false)], c!"x", c!"\r", (5, 12))], [], [], false, c!"\r\n   "⟩ := by
  decide +kernel

end PhpLs.DocBlock
