import Verif.Model.Basic
import Verif.Rpcgen.Text
/-!
# Texts of errors

`impl Display for Error`, `error.rs` 19-23, is `error: ` and the derived `Debug`. Std's `Debug` of texts
asks tables of Unicode which characters can be printed as they are (`char::is_printable`, and the property
Grapheme_Extend); that is the parameter `plain`.
-/

namespace Xdr

open Rpcgen (Str)

/-- Characters with an escape of their own in `char::escape_debug_ext` with the arguments of `Debug for str`.
Std; used by `error.rs` 21. -/
def shortEscape (c : Char) : Option Char :=
  if c = Char.ofNat 0 then some '0'
  else if c = '\t' then some 't'
  else if c = '\r' then some 'r'
  else if c = '\n' then some 'n'
  else if c = '\\' then some '\\'
  else if c = '"' then some '"'
  else none

/-- `char::escape_debug_ext` (std) with the arguments of `Debug for str`. -/
def escapeDebug (plain : Char → Bool) (c : Char) : Str :=
  match shortEscape c with
  | some d => ['\\', d]
  | none => if plain c then [c] else '\\' :: 'u' :: '{' :: (Nat.toDigits 16 c.toNat ++ ['}'])

/-- `Debug for str` (std). -/
def debugStr (plain : Char → Bool) (s : Str) : Str := '"' :: (s.flatMap (escapeDebug plain) ++ ['"'])

/-- `Debug` of an unsigned number. Std; used by `error.rs` 21. -/
def debugNat (n : Nat) : Str := Nat.toDigits 10 n

/-- `#[derive(Debug)]` of `core::str::Utf8Error`. Std; used by `error.rs` 21. -/
def Utf8Error.debug (e : Utf8Error) : Str :=
  c!"Utf8Error { valid_up_to: " ++ debugNat e.valid_up_to ++ c!", error_len: " ++
    (match e.error_len with
      | none => c!"None"
      | some k => c!"Some(" ++ debugNat k ++ c!")") ++ c!" }"

/-- `#[derive(Debug)]` of `Error`, `error.rs` 8. -/
def Error.debug (plain : Char → Bool) : Error → Str
  | .custom msg => c!"Custom(" ++ debugStr plain msg.toList ++ c!")"
  | .convert => c!"Convert"
  | .encoding e => c!"Encoding(" ++ e.debug ++ c!")"
  | .notEnoughData n => c!"NotEnoughData(" ++ debugNat n ++ c!")"
  | .notImplemented => c!"NotImplemented"
  | .notSupported => c!"NotSupported"
  | .trailingData n => c!"TrailingData(" ++ debugNat n ++ c!")"

/-- `impl Display for Error`, `error.rs` 19-23. -/
def Error.display (plain : Char → Bool) (e : Error) : Str := c!"error: " ++ e.debug plain

end Xdr
