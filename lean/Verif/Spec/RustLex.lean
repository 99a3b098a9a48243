import Verif.Rpcgen.Text
/-!
# The tokens of a Rust text

From the Rust reference (Tokens), for ASCII texts without comments: identifiers, raw identifiers, lifetimes,
integer literals, string literals without escapes, punctuation by longest match. Anything else is no Rust
text here.
-/

namespace Xdr.Rpcgen

/-- A token of a Rust text. Delimiters are symbols. -/
inductive Lexeme where
  | ident (raw : Bool) (s : Str)
  | lifetime (s : Str)
  /-- an integer with its suffix, or a string with its quotes -/
  | literal (s : Str)
  | sym (s : Str)
deriving DecidableEq, Repr, Inhabited

/-- Punctuation and delimiters, longer ones first. -/
def rustSymbols : List Str :=
  [c!"<<=", c!">>=", c!"...", c!"..=",
   c!"<=", c!"==", c!"!=", c!">=", c!"&&", c!"||", c!"<<", c!">>", c!"+=", c!"-=", c!"*=", c!"/=", c!"%=",
   c!"^=", c!"&=", c!"|=", c!"..", c!"::", c!"->", c!"<-", c!"=>",
   c!"=", c!"<", c!">", c!"!", c!"~", c!"+", c!"-", c!"*", c!"/", c!"%", c!"^", c!"&", c!"|", c!"@", c!".", c!",",
   c!";", c!":", c!"#", c!"$", c!"?", c!"(", c!")", c!"[", c!"]", c!"{", c!"}"]

/-- The beginning of an identifier. -/
def identStart (c : Char) : Bool := isAlpha c || c == '_'

/-- White space. -/
def isBlank (c : Char) : Bool := c == ' ' || c == '\n' || c == '\t' || c == '\r'

/-- What cannot be the name of a raw identifier. -/
def notRaw : List Str := [c!"_", c!"crate", c!"self", c!"super", c!"Self"]

/-- The first token of a text that does not begin with white space, and the rest. -/
def lexOne : Str → Option (Lexeme × Str)
  | '"' :: cs =>
    match cs.span fun c => c != '"' && c != '\\' with
    | (s, '"' :: rest) => some (.literal ('"' :: s ++ ['"']), rest)
    | _ => none
  | '\'' :: cs =>
    match cs.span isWord with
    | (c :: s, rest) => if identStart c ∧ rest.head? ≠ some '\'' then some (.lifetime (c :: s), rest) else none
    | ([], _) => none
  | 'r' :: '#' :: cs =>
    match cs.span isWord with
    | (c :: s, rest) =>
      if identStart c ∧ c :: s ∉ notRaw ∧ rest.head? ∉ [some '"', some '\'', some '#'] then
        some (.ident true (c :: s), rest) else none
    | ([], _) => none
  | c :: cs =>
    if identStart c then
      match cs.span isWord with
      | (s, rest) =>
        if rest.head? ∉ [some '"', some '\'', some '#'] then some (.ident false (c :: s), rest) else none
    else if isDigit c then
      match cs.span isWord with
      | (s, rest) => if rest.head? ≠ some '.' then some (.literal (c :: s), rest) else none
    else
      match rustSymbols.find? fun s => s.isPrefixOf (c :: cs) with
      | some s => some (.sym s, (c :: cs).drop s.length)
      | none => none
  | [] => none

/-- All tokens of a text, in at most `n` steps. -/
def lexSteps : Nat → Str → Option (List Lexeme)
  | 0, _ => none
  | _ + 1, [] => some []
  | n + 1, c :: cs =>
    if isBlank c then lexSteps n cs
    else
      match lexOne (c :: cs) with
      | some (t, rest) => (lexSteps n rest).map (t :: ·)
      | none => none

/-- All tokens of a text. -/
def lexRust (s : Str) : Option (List Lexeme) := lexSteps (s.length + 1) s

end Xdr.Rpcgen
