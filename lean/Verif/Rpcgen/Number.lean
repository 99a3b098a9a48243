import Verif.Rpcgen.Result
/-!
# Numeric literals: `parser.rs` 63-119 and std's `from_str_radix`
-/

namespace Xdr.Rpcgen

/-- The integer types literals are converted to. Std; the targets of `parser.rs` 72-119. -/
inductive IntTy where
  | i32 | u32 | u64 | usize
deriving DecidableEq, Repr, Inhabited

/-- `T::MIN`. Std; the targets of `parser.rs` 72-119. -/
def IntTy.min : IntTy → Int
  | .i32 => -2147483648
  | _ => 0

/-- `T::MAX`; `usize` has 64 bits. Std; the targets of `parser.rs` 72-119. -/
def IntTy.max : IntTy → Int
  | .i32 => 2147483647
  | .u32 => 4294967295
  | .u64 | .usize => 18446744073709551615

/-- Whether `T` is a signed type. Std; the targets of `parser.rs` 72-119. -/
def IntTy.signed : IntTy → Bool
  | .i32 => true
  | _ => false

/-- `checked_mul`, `checked_add`, `checked_sub`: `None` outside the type. -/
def IntTy.checked (t : IntTy) (v : Int) : Option Int :=
  if t.min ≤ v ∧ v ≤ t.max then some v else none

/-- `char::to_digit(radix)`. Std; in `from_str_radix`, `parser.rs` 79-116. -/
def toDigit (radix : Nat) (c : Char) : Option Nat :=
  let d :=
    if isDigit c then some (c.toNat - 48)
    else if isLower c then some (c.toNat - 97 + 10)
    else if isUpper c then some (c.toNat - 65 + 10)
    else none
  match d with
  | some d => if d < radix then some d else none
  | none => none

/-- The loop of `from_str_radix` for a positive (`neg = false`) or negative number.
Std; called in `parser.rs` 78-116. -/
def digitsLoop (t : IntTy) (radix : Nat) (neg : Bool) : Str → Int → Option Int
  | [], acc => some acc
  | c :: cs, acc =>
    match t.checked (acc * radix) with
    | none => none
    | some m =>
      match toDigit radix c with
      | none => none
      | some d =>
        match t.checked (if neg then m - d else m + d) with
        | none => none
        | some acc' => digitsLoop t radix neg cs acc'

/-- `T::from_str_radix` (`T::from_str` is radix 10), std `core::num`. The kind of `ParseIntError` is
dropped: `Constant::value` replaces the error. -/
def from_str_radix (t : IntTy) (radix : Nat) : Str → Option Int
  | [] => none
  | ['+'] => none
  | ['-'] => none
  | '+' :: cs => digitsLoop t radix false cs 0
  | '-' :: cs => if t.signed then digitsLoop t radix true cs 0 else digitsLoop t radix false ('-' :: cs) 0
  | cs => digitsLoop t radix false cs 0

/-- `TryFrom<&Constant>` for the four types, `parser.rs` 73-119. -/
def Constant.tryInto (t : IntTy) : Constant → Option Int
  | .decimal v => from_str_radix t 10 v
  | .hex v => from_str_radix t 16 v
  | .octal v => from_str_radix t 8 v

/-- `Constant::value`, `parser.rs` 63-71. -/
def Constant.value (t : IntTy) (c : Constant) : GR Int := GR.okOr (c.tryInto t) (.parse c)

end Xdr.Rpcgen
