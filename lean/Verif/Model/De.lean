import Verif.Model.Utf8
/-!
# `serde-xdr/src/de.rs`

Every method of the `Deserializer` and of its access objects is one definition. A serde `Visitor`
is represented by the continuation the method calls (`visit_bool` etc.), as a computation on the
deserializer state; visitors that get no access object simply do not touch the state.
-/

namespace Xdr

/-- A decoding computation: consumes a prefix of `input` (`de.rs` 7-9). -/
abbrev De := M

/-- `de.rs` 39-47. -/
def read (len : Nat) : De Bytes := fun input =>
  if input.length < len then .err (.notEnoughData (len - input.length))
  else .ok (input.take len, input.drop len)

/-- `v.try_into()?` from a slice to `[u8; 4]`, then `u32::from_be_bytes`; a wrong length is
`TryFromSliceError`, i.e. `Convert` (`error.rs` 51-55). -/
def word32 (v : Bytes) : De UInt32 :=
  match v with
  | [a, b, c, d] => pure (ofBe32 a b c d)
  | _ => M.fail .convert

/-- Same for `[u8; 8]`. `de.rs` 54-57. -/
def word64 (v : Bytes) : De UInt64 :=
  match v with
  | [a, b, c, d, e, f, g, h] => pure (ofBe64 a b c d e f g h)
  | _ => M.fail .convert

/-- `de.rs` 49-52. -/
def read_i32 : De Int32 := do
  let v ← read 4
  return (← word32 v).toInt32

/-- `de.rs` 54-57. -/
def read_i64 : De Int64 := do
  let v ← read 8
  return (← word64 v).toInt64

/-- `de.rs` 59-62. -/
def read_u32 : De UInt32 := do
  let v ← read 4
  word32 v

/-- `de.rs` 64-67. -/
def read_u64 : De UInt64 := do
  let v ← read 8
  word64 v

/-- `de.rs` 69-72; the result is the bit pattern. -/
def read_f32 : De UInt32 := do
  let v ← read 4
  word32 v

/-- `de.rs` 74-77; the result is the bit pattern. -/
def read_f64 : De UInt64 := do
  let v ← read 8
  word64 v

/-- `char::from_u32` (std): the scalar values. -/
def charFromU32 (n : UInt32) : Option Char :=
  if h : n.isValidChar then some ⟨n, h⟩ else none

/-- `de.rs` 79-82. -/
def read_char : De Char := do
  let code ← read_u32
  match charFromU32 code with
  | some c => pure c
  | none => M.fail .convert

/-- `self.input = &self.input[padding_size..]`, `de.rs` 91 and 102: slicing past the end panics. -/
def skipPadding (padding_size : Nat) : De Unit := fun input =>
  if padding_size ≤ input.length then .ok ((), input.drop padding_size)
  else .panic .paddingSlice

/-- `de.rs` 84-94. `u32 as usize` is lossless. -/
def read_string : De (List Char) := do
  let size := (← read_u32).toNat
  let padding_size := 4 - size % 4
  let v ← read size
  match from_utf8 v with
  | .error e => M.fail (.encoding e)
  | .ok s => do
    if padding_size < 4 then skipPadding padding_size else pure ()
    return s

/-- `de.rs` 96-105. -/
def read_bytes : De Bytes := do
  let size := (← read_u32).toNat
  let padding_size := 4 - size % 4
  let v ← read size
  if padding_size < 4 then skipPadding padding_size else pure ()
  return v

/-! ## `impl de::Deserializer`, `de.rs` 108-342 -/

section
variable {α : Type}

/-- `de.rs` 111-116. -/
def deserialize_any : De α := M.fail .notImplemented

/-- `de.rs` 118-123. -/
def deserialize_bool (visit_bool : Bool → De α) : De α := do
  visit_bool ((← read_u32) != 0)

/-- `de.rs` 125-130 (`as i8` keeps the low eight bits). -/
def deserialize_i8 (visit_i8 : Int8 → De α) : De α := do
  visit_i8 (← read_i32).toInt8

/-- `de.rs` 132-137. -/
def deserialize_i16 (visit_i16 : Int16 → De α) : De α := do
  visit_i16 (← read_i32).toInt16

/-- `de.rs` 139-144. -/
def deserialize_i32 (visit_i32 : Int32 → De α) : De α := do
  visit_i32 (← read_i32)

/-- `de.rs` 146-151. -/
def deserialize_i64 (visit_i64 : Int64 → De α) : De α := do
  visit_i64 (← read_i64)

/-- serde's default `deserialize_i128` (not overridden in `de.rs`). -/
def deserialize_i128 : De α := M.fail (.custom "i128 is not supported")

/-- `de.rs` 153-158 (`as u8` keeps the low eight bits). -/
def deserialize_u8 (visit_u8 : UInt8 → De α) : De α := do
  visit_u8 (← read_u32).toUInt8

/-- `de.rs` 160-165. -/
def deserialize_u16 (visit_u16 : UInt16 → De α) : De α := do
  visit_u16 (← read_u32).toUInt16

/-- `de.rs` 167-172. -/
def deserialize_u32 (visit_u32 : UInt32 → De α) : De α := do
  visit_u32 (← read_u32)

/-- `de.rs` 174-179. -/
def deserialize_u64 (visit_u64 : UInt64 → De α) : De α := do
  visit_u64 (← read_u64)

/-- serde's default `deserialize_u128` (not overridden in `de.rs`). -/
def deserialize_u128 : De α := M.fail (.custom "u128 is not supported")

/-- `de.rs` 181-186. -/
def deserialize_f32 (visit_f32 : UInt32 → De α) : De α := do
  visit_f32 (← read_f32)

/-- `de.rs` 188-193. -/
def deserialize_f64 (visit_f64 : UInt64 → De α) : De α := do
  visit_f64 (← read_f64)

/-- `de.rs` 195-200. -/
def deserialize_char (visit_char : Char → De α) : De α := do
  visit_char (← read_char)

/-- `de.rs` 202-207. -/
def deserialize_str (visit_borrowed_str : List Char → De α) : De α := do
  visit_borrowed_str (← read_string)

/-- `de.rs` 209-214. -/
def deserialize_string (visit_borrowed_str : List Char → De α) : De α := do
  visit_borrowed_str (← read_string)

/-- `de.rs` 216-221. -/
def deserialize_bytes (visit_borrowed_bytes : Bytes → De α) : De α := do
  visit_borrowed_bytes (← read_bytes)

/-- `de.rs` 223-228. -/
def deserialize_byte_buf (visit_borrowed_bytes : Bytes → De α) : De α := do
  visit_borrowed_bytes (← read_bytes)

/-- `de.rs` 230-239. `visit_some` receives the deserializer itself. -/
def deserialize_option (visit_none : De α) (visit_some : De α) : De α := do
  if (← read_u32) == 0 then visit_none else visit_some

/-- `de.rs` 241-246. -/
def deserialize_unit (visit_unit : De α) : De α := visit_unit

/-- `de.rs` 248-257. -/
def deserialize_unit_struct (_name : String) (visit_unit : De α) : De α := visit_unit

/-- `de.rs` 259-268. -/
def deserialize_newtype_struct (_name : String) (visit_newtype_struct : De α) : De α :=
  visit_newtype_struct

/-- `struct Seq`, `de.rs` 11-14; the `&mut Deserializer` is the ambient state. -/
structure Seq where
  count : Nat
deriving DecidableEq, Repr

/-- `struct Map`, `de.rs` 16-19. -/
structure MapAcc where
  count : Nat
deriving DecidableEq, Repr

/-- `SeqAccess::next_element_seed`, `de.rs` 353-363; returns the access object as well. -/
def Seq.next_element (s : Seq) (seed : De α) : De (Option α × Seq) :=
  if s.count = 0 then pure (none, s)
  else do
    let v ← seed
    pure (some v, { count := s.count - 1 })

/-- `SeqAccess::size_hint`, `de.rs` 365-367. -/
def Seq.size_hint (s : Seq) : Option Nat := some s.count

/-- `MapAccess::next_key_seed`, `de.rs` 379-389. -/
def MapAcc.next_key (s : MapAcc) (seed : De α) : De (Option α × MapAcc) :=
  if s.count = 0 then pure (none, s)
  else do
    let v ← seed
    pure (some v, { count := s.count - 1 })

/-- `MapAccess::next_value_seed`, `de.rs` 391-396. -/
def MapAcc.next_value (_s : MapAcc) (seed : De α) : De α := seed

/-- `MapAccess::size_hint` is serde's default. -/
def MapAcc.size_hint (_s : MapAcc) : Option Nat := none

/-- `de.rs` 270-276. -/
def deserialize_seq (visit_seq : Seq → De α) : De α := do
  let count := (← read_u32).toNat
  visit_seq { count := count }

/-- `de.rs` 278-283. -/
def deserialize_tuple (len : Nat) (visit_seq : Seq → De α) : De α :=
  visit_seq { count := len }

/-- `de.rs` 285-295. -/
def deserialize_tuple_struct (_name : String) (len : Nat) (visit_seq : Seq → De α) : De α :=
  visit_seq { count := len }

/-- `de.rs` 297-303. -/
def deserialize_map (visit_map : MapAcc → De α) : De α := do
  let count := (← read_u32).toNat
  visit_map { count := count }

/-- `de.rs` 305-315. -/
def deserialize_struct (_name : String) (fields : List String) (visit_seq : Seq → De α) : De α :=
  visit_seq { count := fields.length }

/-- `EnumAccess::variant_seed`, `de.rs` 409-417. The `usize` goes through serde's
`UsizeDeserializer`, which calls `visit_u64` of the seed's visitor. -/
def Enum_variant_seed (visit_u64 : Nat → De α) : De α := do
  let index ← read_i32
  if index.toInt < 0 then M.fail .convert
  else visit_u64 index.toInt.toNat

/-- `de.rs` 317-327. The visitor gets the `Enum` access object, whose only first move is
`variant_seed`. -/
def deserialize_enum (_name : String) (_variants : List String) (visit_enum : De α) : De α :=
  visit_enum

/-- `de.rs` 423-425. -/
def Enum_unit_variant : De Unit := pure ()

/-- `de.rs` 427-432. -/
def Enum_newtype_variant (seed : De α) : De α := seed

/-- `de.rs` 434-439. -/
def Enum_tuple_variant (len : Nat) (visit_seq : Seq → De α) : De α :=
  deserialize_tuple len visit_seq

/-- `de.rs` 441-450. -/
def Enum_struct_variant (fields : List String) (visit_seq : Seq → De α) : De α :=
  deserialize_tuple fields.length visit_seq

/-- `de.rs` 329-334. -/
def deserialize_identifier (visit_borrowed_str : List Char → De α) : De α :=
  deserialize_str visit_borrowed_str

/-- `de.rs` 336-341. -/
def deserialize_ignored_any : De α := deserialize_any

end

/-- `from_bytes`, `de.rs` 25-36, for the `Deserialize` impl `d`. -/
def from_bytes {α : Type} (d : De α) (value : Bytes) : Res α :=
  match d value with
  | .ok (t, rest) => if rest.isEmpty then .ok t else .err (.trailingData rest.length)
  | .err e => .err e
  | .panic p => .panic p
  | .depth => .depth

end Xdr
