import Verif.Rpcgen.Number
/-!
# The number a literal denotes

Positional notation over the mathematical integers, written apart from `from_str_radix`.
-/

namespace Xdr.Rpcgen

/-- The value of one digit: `0`..`9`, `a`..`f`, `A`..`F`. -/
def digitValue (c : Char) : Nat :=
  if 97 ≤ c.toNat then c.toNat - 87 else if 65 ≤ c.toNat then c.toNat - 55 else c.toNat - 48

/-- Digits in a base: every digit counts the base to the power of its place. -/
def numeral (base : Nat) : Str → Nat
  | [] => 0
  | c :: cs => digitValue c * base ^ cs.length + numeral base cs

/-- The number a literal denotes. -/
def Constant.number : Constant → Int
  | .decimal ('-' :: d) => -(numeral 10 d : Int)
  | .decimal d => numeral 10 d
  | .hex d => numeral 16 d
  | .octal d => numeral 8 d

/-- The least number of a Rust integer type: two's complement for `i32`, zero for unsigned types. -/
def IntTy.low : IntTy → Int
  | .i32 => -2 ^ 31
  | .u32 | .u64 | .usize => 0

/-- The greatest number of a Rust integer type; `usize` has 64 bits. -/
def IntTy.high : IntTy → Int
  | .i32 => 2 ^ 31 - 1
  | .u32 => 2 ^ 32 - 1
  | .u64 | .usize => 2 ^ 64 - 1

end Xdr.Rpcgen
