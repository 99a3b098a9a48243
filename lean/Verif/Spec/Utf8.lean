import Verif.Model.Basic
/-!
# What is wrong with a byte string that is not UTF-8

In terms of the bytes of characters only, as Lean's core library has them (`String.utf8EncodeChar`).
-/

namespace Xdr

/-- Some character's bytes begin with `p`, or are `p`. -/
def StartsChar (p : Bytes) : Prop := ∃ c : Char, p <+: String.utf8EncodeChar c

/-- The bytes are a text and then something that begins with no character. `valid_up_to` is the length of
the text. If the rest is the start of a character, cut off by the end, there is no `error_len`.
Otherwise it is the length of the longest start of a character at that place, and 1 if there is none. -/
structure Faulty (v : Bytes) (e : Utf8Error) : Prop where
  parts : ∃ (text : List Char) (rest : Bytes), v = text.flatMap String.utf8EncodeChar ++ rest ∧
    e.valid_up_to = (text.flatMap String.utf8EncodeChar).length ∧
    rest ≠ [] ∧ (∀ c, ¬ String.utf8EncodeChar c <+: rest) ∧
    match e.error_len with
    | none => StartsChar rest
    | some k => ¬ StartsChar rest ∧ 1 ≤ k ∧ k ≤ rest.length ∧ (k = 1 ∨ StartsChar (rest.take k)) ∧
        ∀ j, k < j → ¬ StartsChar (rest.take j)

end Xdr
