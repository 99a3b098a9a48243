import Verif.Model.Basic
/-!
# UTF-8

`v.as_bytes()` (`ser.rs` 85) and `str::from_utf8` (`de.rs` 89) are Rust std functions. They are
modelled from the definition of UTF-8 (RFC 3629 / Unicode table 3-7), which is what std documents.
A Rust `str` is a sequence of Unicode scalar values, i.e. a `List Char`.
-/

namespace Xdr

/-- UTF-8 bytes of one scalar value (std `char::encode_utf8`). -/
def utf8Char (c : Char) : Bytes :=
  let n := c.toNat
  if n < 0x80 then [UInt8.ofNat n]
  else if n < 0x800 then [UInt8.ofNat (0xC0 + n / 64), UInt8.ofNat (0x80 + n % 64)]
  else if n < 0x10000 then
    [UInt8.ofNat (0xE0 + n / 4096), UInt8.ofNat (0x80 + n / 64 % 64), UInt8.ofNat (0x80 + n % 64)]
  else
    [UInt8.ofNat (0xF0 + n / 262144), UInt8.ofNat (0x80 + n / 4096 % 64),
     UInt8.ofNat (0x80 + n / 64 % 64), UInt8.ofNat (0x80 + n % 64)]

/-- `str::as_bytes`. Std; called in `ser.rs` 84-87. -/
def utf8Bytes : List Char → Bytes
  | [] => []
  | c :: cs => utf8Char c ++ utf8Bytes cs

/-- A continuation byte `10xxxxxx`: its six payload bits. Std. -/
def cont (b : UInt8) : Option Nat :=
  if 0x80 ≤ b.toNat ∧ b.toNat < 0xC0 then some (b.toNat - 0x80) else none

/-- Scalar value check used by the decoder: rejects overlong forms (`n < lo`), surrogates and
values above U+10FFFF. -/
def scalar (lo n : Nat) : Option Char :=
  if h : lo ≤ n ∧ n.isValidChar then some (Char.ofNatAux n h.2) else none

/-- The scalar values of a byte string in UTF-8; `none` if it is not.
Std; what `from_utf8`, called in `de.rs` 89, makes of valid bytes. -/
def utf8Decode : Bytes → Option (List Char)
  | [] => some []
  | a :: rest =>
    if a.toNat < 0x80 then
      match scalar 0 a.toNat, utf8Decode rest with
      | some c, some cs => some (c :: cs)
      | _, _ => none
    else if 0xC0 ≤ a.toNat ∧ a.toNat < 0xE0 then
      match rest with
      | b :: rest =>
        match cont b with
        | some y =>
          match scalar 0x80 ((a.toNat - 0xC0) * 64 + y), utf8Decode rest with
          | some c, some cs => some (c :: cs)
          | _, _ => none
        | none => none
      | _ => none
    else if 0xE0 ≤ a.toNat ∧ a.toNat < 0xF0 then
      match rest with
      | b :: c :: rest =>
        match cont b, cont c with
        | some y, some z =>
          match scalar 0x800 ((a.toNat - 0xE0) * 4096 + y * 64 + z), utf8Decode rest with
          | some c, some cs => some (c :: cs)
          | _, _ => none
        | _, _ => none
      | _ => none
    else if 0xF0 ≤ a.toNat ∧ a.toNat < 0xF8 then
      match rest with
      | b :: c :: d :: rest =>
        match cont b, cont c, cont d with
        | some y, some z, some w =>
          match scalar 0x10000 ((a.toNat - 0xF0) * 262144 + y * 4096 + z * 64 + w),
              utf8Decode rest with
          | some c, some cs => some (c :: cs)
          | _, _ => none
        | _, _, _ => none
      | _ => none
    else none

/-- `utf8_char_width` (std `core::str::validations`), a table: the number of bytes of a character that begins
with this byte, 0 if none does. -/
def utf8_char_width (b : UInt8) : Nat :=
  if b.toNat < 0x80 then 1
  else if b.toNat < 0xC2 then 0
  else if b.toNat < 0xE0 then 2
  else if b.toNat < 0xF0 then 3
  else if b.toNat < 0xF5 then 4
  else 0

/-- `(b as i8) < -64`: a continuation byte. Std. -/
def isCont (b : UInt8) : Bool := 0x80 ≤ b.toNat ∧ b.toNat ≤ 0xBF

/-- The second of three bytes, the `match (first, next!())` for width 3. Std. -/
def second3 (a b : UInt8) : Bool :=
  (a.toNat = 0xE0 ∧ 0xA0 ≤ b.toNat ∧ b.toNat ≤ 0xBF) ∨
  (0xE1 ≤ a.toNat ∧ a.toNat ≤ 0xEC ∧ 0x80 ≤ b.toNat ∧ b.toNat ≤ 0xBF) ∨
  (a.toNat = 0xED ∧ 0x80 ≤ b.toNat ∧ b.toNat ≤ 0x9F) ∨
  (0xEE ≤ a.toNat ∧ a.toNat ≤ 0xEF ∧ 0x80 ≤ b.toNat ∧ b.toNat ≤ 0xBF)

/-- The second of four bytes, the `match (first, next!())` for width 4. Std. -/
def second4 (a b : UInt8) : Bool :=
  (a.toNat = 0xF0 ∧ 0x90 ≤ b.toNat ∧ b.toNat ≤ 0xBF) ∨
  (0xF1 ≤ a.toNat ∧ a.toNat ≤ 0xF3 ∧ 0x80 ≤ b.toNat ∧ b.toNat ≤ 0xBF) ∨
  (a.toNat = 0xF4 ∧ 0x80 ≤ b.toNat ∧ b.toNat ≤ 0x8F)

/-- `run_utf8_validation` (std `core::str::validations`) from the offset `off` on; `none` is `Ok(())`. The
fast path for ASCII is left out. -/
def run_utf8_validation (off : Nat) : Bytes → Option Utf8Error
  | [] => none
  | a :: rest =>
    match utf8_char_width a with
    | 1 => run_utf8_validation (off + 1) rest
    | 2 =>
      match rest with
      | [] => some ⟨off, none⟩
      | b :: rest => if isCont b then run_utf8_validation (off + 2) rest else some ⟨off, some 1⟩
    | 3 =>
      match rest with
      | [] => some ⟨off, none⟩
      | b :: rest =>
        if second3 a b then
          match rest with
          | [] => some ⟨off, none⟩
          | c :: rest => if isCont c then run_utf8_validation (off + 3) rest else some ⟨off, some 2⟩
        else some ⟨off, some 1⟩
    | 4 =>
      match rest with
      | [] => some ⟨off, none⟩
      | b :: rest =>
        if second4 a b then
          match rest with
          | [] => some ⟨off, none⟩
          | c :: rest =>
            if isCont c then
              match rest with
              | [] => some ⟨off, none⟩
              | d :: rest => if isCont d then run_utf8_validation (off + 4) rest else some ⟨off, some 3⟩
            else some ⟨off, some 2⟩
        else some ⟨off, some 1⟩
    | _ => some ⟨off, some 1⟩

/-- `str::from_utf8`: the check, then the same bytes as a `str` (`from_utf8_unchecked`). -/
def from_utf8 (v : Bytes) : Except Utf8Error (List Char) :=
  match run_utf8_validation 0 v with
  | some e => .error e
  | none => .ok ((utf8Decode v).getD [])

end Xdr
