/-!
# Text

A Rust `&str` / `String` of rpcgen is a list of characters. `c!"abc"` abbreviates the list
`['a', 'b', 'c']`, so that literal texts compute in the kernel.
-/

namespace Xdr.Rpcgen

/-- A piece of text. `&str` and `String` in `parser.rs` and `gen_code.rs`; not only ASCII. -/
abbrev Str := List Char

open Lean in
/-- A literal text as a list of characters. -/
macro:max "c!" s:str : term => do
  let cs := s.getString.toList.toArray.map fun c => Syntax.mkCharLit c
  `([$cs,*])

/-- `char::is_ascii_lowercase`. Std; in nom and `gen_code.rs` 898-979. -/
def isLower (c : Char) : Bool := 97 ≤ c.toNat && c.toNat ≤ 122

/-- `char::is_ascii_uppercase`. Std; in nom and `gen_code.rs` 898-979. -/
def isUpper (c : Char) : Bool := 65 ≤ c.toNat && c.toNat ≤ 90

/-- `char::is_ascii_digit`. Std; in nom and `gen_code.rs` 898-979. -/
def isDigit (c : Char) : Bool := 48 ≤ c.toNat && c.toNat ≤ 57

/-- `char::is_ascii_alphabetic`. Std; in nom and `gen_code.rs` 898-979. -/
def isAlpha (c : Char) : Bool := isLower c || isUpper c

/-- Letters, digits and the underscore. Std; in nom and `gen_code.rs` 898-979. -/
def isWord (c : Char) : Bool := isAlpha c || isDigit c || c == '_'

/-- `char::to_ascii_uppercase`. Std; `gen_code.rs` 912 and 928. -/
def toUpper (c : Char) : Char := if isLower c then Char.ofNat (c.toNat - 32) else c

/-- `char::to_ascii_lowercase`. Std; `gen_code.rs` 929-978. -/
def toLower (c : Char) : Char := if isUpper c then Char.ofNat (c.toNat + 32) else c

end Xdr.Rpcgen
