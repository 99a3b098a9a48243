import Verif.Rpcgen.Result
/-!
# Names: `gen_code.rs` 898-980 and `format_ident!`

Texts are ASCII here, as every name the parser returns is; `char::is_lowercase`, `is_uppercase` and
`is_numeric` are then `isLower`, `isUpper` and `isDigit`.
-/

namespace Xdr.Rpcgen

/-- `str::split('_')`: the texts between the underscores; never empty. Std; `gen_code.rs` 901. -/
def splitUnderscore : Str → List Str
  | [] => [[]]
  | c :: cs =>
    if c == '_' then [] :: splitUnderscore cs
    else
      match splitUnderscore cs with
      | p :: ps => (c :: p) :: ps
      | [] => [[c]]

/-- `capitalize`, `gen_code.rs` 923-932. -/
def capitalize : Str → Str
  | [] => []
  | c :: cs => toUpper c :: cs.map toLower

/-- `upper_camel_case`, `gen_code.rs` 898-917. -/
def upper_camel_case (value : Str) : Str :=
  if value.contains '_' then (splitUnderscore value).flatMap capitalize
  else
    match value with
    | [] => []
    | c :: cs => toUpper c :: cs

/-- `str::split_inclusive(p)`: pieces that end with a character satisfying `p`, and what is left.
Std; `gen_code.rs` 936. -/
def splitInclusive (p : Char → Bool) : Str → List Str
  | [] => []
  | c :: cs =>
    if p c then [c] :: splitInclusive p cs
    else
      match splitInclusive p cs with
      | [] => [[c]]
      | q :: qs => (c :: q) :: qs

/-- `str::to_ascii_lowercase`. Std; `gen_code.rs` 957-978. -/
def lowercase (s : Str) : Str := s.map toLower

/-- `with_underscore`, `gen_code.rs` 976-980. -/
def with_underscore (value : Str) : Str := '_' :: lowercase value

/-- `gen_code.rs` 938-945. -/
def snakePiece : Str → Str
  | [c] => [c]
  | c => capitalize c

/-- The first half of `snake_case`, `gen_code.rs` 935-950: runs of capitals become one capital. -/
def snakeCapitalized (value : Str) : Str :=
  (splitInclusive (fun c => isLower c || isDigit c) value).flatMap snakePiece

/-- The texts from one capital to the next; the first piece is what comes before the first capital.
(`match_indices(char::is_uppercase)` and the slices between the indices, `gen_code.rs` 954-967.) -/
def splitBefore (p : Char → Bool) : Str → Str × List Str
  | [] => ([], [])
  | c :: cs =>
    let (h, t) := splitBefore p cs
    if p c then ([], (c :: h) :: t) else (c :: h, t)

/-- `snake_case`, `gen_code.rs` 934-970. While `index` is 0 slices are lowered without an underscore,
and a capital at position 0 leaves `index` at 0, so the piece it begins gets no underscore. -/
def snake_case (value : Str) : Str :=
  let (h, t) := splitBefore isUpper (snakeCapitalized value)
  match h, t with
  | [], p :: ps => lowercase p ++ ps.flatMap with_underscore
  | h, ps => lowercase h ++ ps.flatMap with_underscore

/-- A Rust identifier token. -/
structure RIdent where
  raw : Bool
  name : Str
deriving DecidableEq, Repr, Inhabited

/-- The text of an identifier token, as `Display` (proc-macro2) and `stringify!` give it. `gen_code.rs` 148. -/
def RIdent.text (i : RIdent) : Str := if i.raw then 'r' :: '#' :: i.name else i.name

/-- `validate_ident` of proc-macro2 outside a procedural macro: not empty, not a number, an identifier
start and identifier continues (for ASCII, a letter or underscore, then letters, digits and
underscores). `gen_code.rs` 187, 714, 920 and 973. -/
def identOk : Str → Bool
  | [] => false
  | c :: cs => (isAlpha c || c == '_') && cs.all isWord

/-- `format_ident!("{}", s)`: `Ident::new_raw` for `r#..`, otherwise `Ident::new`. Raw identifiers must
not be path keywords. `gen_code.rs` 187, 714, 920 and 973. -/
def mkIdent (s : Str) : GR RIdent :=
  match s with
  | 'r' :: '#' :: s' =>
    if !identOk s' then .panic (.badIdent s)
    else if [c!"_", c!"super", c!"self", c!"Self", c!"crate"].contains s' then .panic (.badIdent s)
    else .ok ⟨true, s'⟩
  | s => if identOk s then .ok ⟨false, s⟩ else .panic (.badIdent s)

/-- `upper_camel_case_ident`, `gen_code.rs` 919-921. -/
def upper_camel_case_ident (value : Str) : GR RIdent := mkIdent (upper_camel_case value)

/-- `snake_case_ident`, `gen_code.rs` 972-974. -/
def snake_case_ident (value : Str) : GR RIdent := mkIdent (snake_case value)

end Xdr.Rpcgen
