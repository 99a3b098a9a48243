/-!
# Basic vocabulary of the model

Bytes, errors, results with explicit panics, the state-passing monad that stands for
`&mut Serializer` / `&mut Deserializer`, and big-endian integers.
-/

namespace Xdr

/-- A byte string: `Vec<u8>` / `&[u8]`. `output` and `input`, `ser.rs` 5 and `de.rs` 8. -/
abbrev Bytes := List UInt8

/-- `core::str::Utf8Error`: how many bytes from the start are valid, and the length of the bad sequence
after them, `None` if the input ends inside a character. Std; kept in `error.rs` 12. -/
structure Utf8Error where
  valid_up_to : Nat
  error_len : Option Nat
deriving DecidableEq, Repr, Inhabited

/-- `serde-xdr/src/error.rs` 8-17 (`enum Error`). -/
inductive Error where
  | custom (msg : String)
  | convert
  | encoding (error : Utf8Error)
  | notEnoughData (missing : Nat)
  | notImplemented
  | notSupported
  | trailingData (left : Nat)
deriving DecidableEq, Repr, Inhabited

/-- The places at which modelled code can panic. In the lines cited at each use; `illTyped` models none. -/
inductive PanicSite where
  /-- `&self.input[padding_size..]` out of range, `de.rs` 91 and 102. -/
  | paddingSlice
  /-- `Option::unwrap` on `None`. -/
  | unwrapNone
  /-- `Result::unwrap` on `Err`. -/
  | unwrapErr
  /-- `unimplemented!()` / `unreachable!()`. -/
  | unimplemented
  /-- Not Rust behaviour: the value is not a value of the type (rustc would reject the program). -/
  | illTyped
deriving DecidableEq, Repr, Inhabited

/-- Outcome of a modelled call: `Ok`, `Err`, a panic, or recursion bound (stack) exhausted.
`Result<T>` of `ser.rs` and `de.rs`, with what Rust leaves implicit. -/
inductive Res (α : Type) where
  | ok (a : α)
  | err (e : Error)
  | panic (p : PanicSite)
  | depth
deriving DecidableEq, Repr, Inhabited

namespace Res

/-- Plumbing: the `?` operator. -/
def bind {α β : Type} : Res α → (α → Res β) → Res β
  | .ok a, f => f a
  | .err e, _ => .err e
  | .panic p, _ => .panic p
  | .depth, _ => .depth

end Res

/-- State-passing computations. For the serializer the state is `output` (`ser.rs` 4-6), for the
deserializer it is `input` (`de.rs` 7-9). The `?` operator is `>>=`.
Simplification: the state left behind by a failing call is not observable, so it is dropped. -/
def M (α : Type) : Type := Bytes → Res (α × Bytes)

namespace M

/-- Plumbing: `Ok(a)`. -/
@[inline] def pure {α : Type} (a : α) : M α := fun s => .ok (a, s)

/-- Plumbing: the `?` operator, throughout `ser.rs` and `de.rs`. -/
@[inline] def bind {α β : Type} (m : M α) (f : α → M β) : M β := fun s =>
  match m s with
  | .ok (a, s') => f a s'
  | .err e => .err e
  | .panic p => .panic p
  | .depth => .depth

/-- Plumbing: `do` notation for `M`. -/
instance : Monad M where
  pure := M.pure
  bind := M.bind

/-- `return Err(e)`. Throughout `ser.rs` and `de.rs`, e.g. `de.rs` 41. -/
def fail {α : Type} (e : Error) : M α := fun _ => .err e

/-- A panic. E.g. of the slice in `de.rs` 91. -/
def panic {α : Type} (p : PanicSite) : M α := fun _ => .panic p

/-- Recursion bound exhausted. Plumbing: no line of the code; Rust overflows the stack. -/
def depth {α : Type} : M α := fun _ => .depth

/-- Lift a result that does not touch the state. Plumbing. -/
def ofRes {α : Type} : Res α → M α
  | .ok a => M.pure a
  | .err e => M.fail e
  | .panic p => M.panic p
  | .depth => M.depth

end M

/-! ## Big-endian integers (`u32::to_be_bytes` and friends, Rust std) -/

/-- `u32::to_be_bytes`. `UInt8.ofNat` keeps the low eight bits. Std; called in `ser.rs` 42-78. -/
def be32 (v : UInt32) : Bytes :=
  [UInt8.ofNat (v.toNat / 2 ^ 24), UInt8.ofNat (v.toNat / 2 ^ 16),
   UInt8.ofNat (v.toNat / 2 ^ 8), UInt8.ofNat v.toNat]

/-- `u32::from_be_bytes`. Std; called in `de.rs` 49-77. -/
def ofBe32 (a b c d : UInt8) : UInt32 :=
  UInt32.ofNat (a.toNat * 2 ^ 24 + b.toNat * 2 ^ 16 + c.toNat * 2 ^ 8 + d.toNat)

/-- `u64::to_be_bytes`. Std; called in `ser.rs` 42-78. -/
def be64 (v : UInt64) : Bytes :=
  [UInt8.ofNat (v.toNat / 2 ^ 56), UInt8.ofNat (v.toNat / 2 ^ 48),
   UInt8.ofNat (v.toNat / 2 ^ 40), UInt8.ofNat (v.toNat / 2 ^ 32),
   UInt8.ofNat (v.toNat / 2 ^ 24), UInt8.ofNat (v.toNat / 2 ^ 16),
   UInt8.ofNat (v.toNat / 2 ^ 8), UInt8.ofNat v.toNat]

/-- `u64::from_be_bytes`. Std; called in `de.rs` 49-77. -/
def ofBe64 (a b c d e f g h : UInt8) : UInt64 :=
  UInt64.ofNat (a.toNat * 2 ^ 56 + b.toNat * 2 ^ 48 + c.toNat * 2 ^ 40 + d.toNat * 2 ^ 32
    + e.toNat * 2 ^ 24 + f.toNat * 2 ^ 16 + g.toNat * 2 ^ 8 + h.toNat)

end Xdr
