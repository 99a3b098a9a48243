import Verif.Model.Basic
/-!
# RFC 4506: XDR values and their encoding

Written from the RFC, independently of the code: an XDR value is one of the data types of section 4,
and `encode` is the encoding the RFC prescribes, `none` if the value is outside the ranges the RFC
allows.
-/

namespace Xdr.Rfc

/-- `n` as `k` bytes, most significant first (RFC 4506 section 4.1). -/
def beBytes : Nat → Nat → Bytes
  | 0, _ => []
  | k + 1, n => beBytes k (n / 256) ++ [UInt8.ofNat (n % 256)]

/-- Residual zero bytes making the length a multiple of four (section 3). -/
def zeroPad (bs : Bytes) : Bytes := bs ++ List.replicate ((4 - bs.length % 4) % 4) 0

/-- XDR data values (section 4). Floats are given by their IEEE 754 bit pattern. -/
inductive XVal where
  /-- 4.1 -/
  | int (v : Int)
  /-- 4.2 -/
  | uint (v : Nat)
  /-- 4.3 -/
  | enum (v : Int)
  /-- 4.4 -/
  | bool (v : Bool)
  /-- 4.5 -/
  | hyper (v : Int)
  /-- 4.5 -/
  | uhyper (v : Nat)
  /-- 4.6 -/
  | float (bits : Nat)
  /-- 4.7 -/
  | double (bits : Nat)
  /-- 4.9 -/
  | opaqueFixed (bs : Bytes)
  /-- 4.10 -/
  | opaqueVar (bs : Bytes)
  /-- 4.11 -/
  | string (bs : Bytes)
  /-- 4.12 -/
  | arrayFixed (vs : List XVal)
  /-- 4.13 -/
  | arrayVar (vs : List XVal)
  /-- 4.14 -/
  | struct (vs : List XVal)
  /-- 4.15: discriminant and the chosen arm -/
  | union (disc : XVal) (arm : XVal)
  /-- 4.16 -/
  | void
  /-- 4.19, absent -/
  | optNone
  /-- 4.19, present -/
  | optSome (v : XVal)

/-- A signed integer in `k` bytes, two's complement. -/
def signed (k : Nat) (v : Int) : Option Bytes :=
  if -(2 ^ (8 * k - 1) : Int) ≤ v ∧ v < (2 ^ (8 * k - 1) : Int) then
    some (beBytes k (v % (2 ^ (8 * k) : Int)).toNat)
  else none

/-- An unsigned integer in `k` bytes. -/
def unsigned (k : Nat) (v : Nat) : Option Bytes :=
  if v < 2 ^ (8 * k) then some (beBytes k v) else none

/-- Concatenation of two encodings. -/
def cat (a b : Option Bytes) : Option Bytes :=
  match a, b with
  | some x, some y => some (x ++ y)
  | _, _ => none

mutual
/-- The encoding of a value. -/
def encode : XVal → Option Bytes
  | .int v => signed 4 v
  | .uint v => unsigned 4 v
  | .enum v => signed 4 v
  | .bool v => signed 4 (if v then 1 else 0)
  | .hyper v => signed 8 v
  | .uhyper v => unsigned 8 v
  | .float v => unsigned 4 v
  | .double v => unsigned 8 v
  | .opaqueFixed bs => some (zeroPad bs)
  | .opaqueVar bs => cat (unsigned 4 bs.length) (some (zeroPad bs))
  | .string bs => cat (unsigned 4 bs.length) (some (zeroPad bs))
  | .arrayFixed vs => encodeAll vs
  | .arrayVar vs => cat (unsigned 4 vs.length) (encodeAll vs)
  | .struct vs => encodeAll vs
  | .union d a => cat (encode d) (encode a)
  | .void => some []
  | .optNone => signed 4 0
  | .optSome v => cat (signed 4 1) (encode v)

/-- Components one after the other. -/
def encodeAll : List XVal → Option Bytes
  | [] => some []
  | v :: vs => cat (encode v) (encodeAll vs)
end

end Xdr.Rfc
