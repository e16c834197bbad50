/-!
# Basics: text and the Unicode facts the code relies on

A Rust `&str`/`String` is modelled as the list of its `char`s (Unicode scalar values, Lean `Char`).
-/

namespace PhpLs

/-- A Rust string, as the list of its `char`s. -/
abbrev Text := List Char

/-- `c!"abc"` is the text `['a', 'b', 'c']` (expanded at elaboration time so that the kernel sees a plain list). -/
syntax:max "c!" str : term

open Lean in
macro_rules
  | `(c!$s:str) => do
    let cs : Array (TSyntax `term) := (s.getString.toList.map fun c => (Syntax.mkCharLit c : TSyntax `term)).toArray
    `(([$cs,*] : Text))

/-- The ASCII characters Rust's `char::is_whitespace` accepts: tab, line feed, vertical tab, form feed, carriage return and
space. -/
def asciiSpace (c : Char) : Bool := c = ' ' || (9 ≤ c.toNat && c.toNat ≤ 13)

/-- The three Unicode dependent functions of Rust's standard library the code uses.  They are parameters of the model;
the only facts assumed about them are their values on ASCII.

* `isAlnum` is `char::is_alphanumeric` (`src/parser/scanner.rs` 602, 763; `src/parser/ast/comments.rs`).
* `lower` is `str::to_lowercase` (`src/parser/scanner.rs` 951; `src/environment/symbol.rs` and others).
* `isSpace` is `char::is_whitespace` (`src/parser/ast/comments.rs` 356). -/
structure Unicode where
  isAlnum : Char → Bool
  lower : Text → Text
  alnum_ascii : ∀ c : Char, c.toNat < 128 → isAlnum c = c.isAlphanum
  lower_ascii : ∀ s : Text, (∀ c ∈ s, c.toNat < 128) → lower s = s.map Char.toLower
  isSpace : Char → Bool
  space_ascii : ∀ c : Char, c.toNat < 128 → isSpace c = asciiSpace c

/-- The ASCII-only instance; it shows that the assumptions are consistent and is used in concrete examples. -/
def Unicode.ascii : Unicode where
  isAlnum := Char.isAlphanum
  lower := List.map Char.toLower
  alnum_ascii := fun _ _ => rfl
  lower_ascii := fun _ _ => rfl
  isSpace := asciiSpace
  space_ascii := fun _ _ => rfl

/-- Number of bytes of a text in UTF-8: Rust's `str::len`. -/
def byteLen (t : Text) : Nat := (t.map Char.utf8Size).sum

end PhpLs
