import Verif.Model.De
/-!
# `serde-xdr/src/de.rs` with the input a failing call leaves behind

`De.lean` drops the state of the deserializer when a call fails: with `?` everywhere nothing can be
seen of it. A `Visitor` or a `Deserialize` impl may however match on the `Result` of a nested call and
go on. Here the methods are given once more with what is left of the input in every case.
-/

namespace Xdr

/-- A decoding computation and the input it leaves, also when it fails. (What is left after a panic or
at the recursion bound means nothing.) `&mut Deserializer` and `Result`, `de.rs` 7-9. -/
def K (α : Type) : Type := Bytes → Res α × Bytes

namespace K

/-- Plumbing: `Ok(a)`. -/
@[inline] def pure {α : Type} (a : α) : K α := fun s => (.ok a, s)

/-- Plumbing: the `?` operator. -/
@[inline] def bind {α β : Type} (m : K α) (f : α → K β) : K β := fun s =>
  match m s with
  | (.ok a, s') => f a s'
  | (.err e, s') => (.err e, s')
  | (.panic p, s') => (.panic p, s')
  | (.depth, s') => (.depth, s')

/-- Plumbing: `do` notation for `K`. -/
instance : Monad K where
  pure := K.pure
  bind := K.bind

/-- `return Err(e)`. `de.rs`, as `M.fail`. -/
def fail {α : Type} (e : Error) : K α := fun s => (.err e, s)

/-- A panic, as `M.panic`; `de.rs` 91 and 102. -/
def panic {α : Type} (p : PanicSite) : K α := fun s => (.panic p, s)

/-- Plumbing: recursion bound exhausted, as `M.depth`. -/
def depth {α : Type} : K α := fun s => (.depth, s)

/-- The `Result` of a call, as a value to match on. A panic is not caught.
In code of users only: `de.rs` has no `match` on results. -/
def attempt {α : Type} (m : K α) : K (Except Error α) := fun s =>
  match m s with
  | (.ok a, s') => (.ok (.ok a), s')
  | (.err e, s') => (.ok (.error e), s')
  | (.panic p, s') => (.panic p, s')
  | (.depth, s') => (.depth, s')

/-- `?` on a `Result`. Plumbing. -/
def ofExcept {α : Type} : Except Error α → K α
  | .ok a => K.pure a
  | .error e => K.fail e

end K

/-- `de.rs` 39-47: when there is not enough, nothing is taken. -/
def readK (len : Nat) : K Bytes := fun input =>
  if input.length < len then (.err (.notEnoughData (len - input.length)), input)
  else (.ok (input.take len), input.drop len)

/-- `v.try_into()?`, then `u32::from_be_bytes`; see `word32`. `de.rs` 49-77. -/
def word32K (v : Bytes) : K UInt32 :=
  match v with
  | [a, b, c, d] => pure (ofBe32 a b c d)
  | _ => K.fail .convert

/-- Same for `[u8; 8]`. `de.rs` 54-57. -/
def word64K (v : Bytes) : K UInt64 :=
  match v with
  | [a, b, c, d, e, f, g, h] => pure (ofBe64 a b c d e f g h)
  | _ => K.fail .convert

/-- `de.rs` 49-52. -/
def read_i32K : K Int32 := do
  let v ← readK 4
  return (← word32K v).toInt32

/-- `de.rs` 54-57. -/
def read_i64K : K Int64 := do
  let v ← readK 8
  return (← word64K v).toInt64

/-- `de.rs` 59-62; 69-72 is the same on bit patterns. -/
def read_u32K : K UInt32 := do
  let v ← readK 4
  word32K v

/-- `de.rs` 64-67; 74-77 is the same on bit patterns. -/
def read_u64K : K UInt64 := do
  let v ← readK 8
  word64K v

/-- `de.rs` 79-82. -/
def read_charK : K Char := do
  let code ← read_u32K
  match charFromU32 code with
  | some c => pure c
  | none => K.fail .convert

/-- `de.rs` 91 and 102. -/
def skipPaddingK (padding_size : Nat) : K Unit := fun input =>
  if padding_size ≤ input.length then (.ok (), input.drop padding_size)
  else (.panic .paddingSlice, input)

/-- `de.rs` 84-94: `from_utf8(v)?` comes before the padding is skipped. -/
def read_stringK : K (List Char) := do
  let size := (← read_u32K).toNat
  let padding_size := 4 - size % 4
  let v ← readK size
  match from_utf8 v with
  | .error e => K.fail (.encoding e)
  | .ok s => do
    if padding_size < 4 then skipPaddingK padding_size else pure ()
    return s

/-- `de.rs` 96-105. -/
def read_bytesK : K Bytes := do
  let size := (← read_u32K).toNat
  let padding_size := 4 - size % 4
  let v ← readK size
  if padding_size < 4 then skipPaddingK padding_size else pure ()
  return v

/-- `SeqAccess::next_element_seed`, `de.rs` 353-363: the visitor gets the `Result`; `self.count -= 1`
comes before the seed runs, so it has happened whether the seed fails or not. -/
def Seq.nextK {α : Type} (s : Seq) (seed : K α) : K (Except Error (Option α) × Seq) :=
  if s.count = 0 then pure (.ok none, s)
  else do
    let r ← K.attempt seed
    pure (r.map some, { count := s.count - 1 })

/-- `MapAccess::next_key_seed`, `de.rs` 379-389. -/
def MapAcc.nextKeyK {α : Type} (s : MapAcc) (seed : K α) : K (Except Error (Option α) × MapAcc) :=
  if s.count = 0 then pure (.ok none, s)
  else do
    let r ← K.attempt seed
    pure (r.map some, { count := s.count - 1 })

/-- `EnumAccess::variant_seed`, `de.rs` 409-417. -/
def variant_seedK {α : Type} (visit_u64 : Nat → K α) : K α := do
  let index ← read_i32K
  if index.toInt < 0 then K.fail .convert
  else visit_u64 index.toInt.toNat

/-- `from_bytes`, `de.rs` 25-36. -/
def from_bytesK {α : Type} (d : K α) (value : Bytes) : Res α :=
  match d value with
  | (.ok t, rest) => if rest.isEmpty then .ok t else .err (.trailingData rest.length)
  | (r, _) => r

end Xdr
