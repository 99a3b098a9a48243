import Verif.Model.Types
/-!
# The unit tests of `serde-xdr`, run on the model

Evidence that the model is the program. Every `#[test]` of `serde-xdr/src/lib.rs` (24-829) and
`serde-xdr-test/src/lib.rs` is one or more `example`s, in the order of the source and with the name of the
test before them. The types are those of the tests.
-/

set_option maxRecDepth 100000

namespace Xdr.Tests

/-- The impls of `CustomEnum`, `serde-xdr/src/lib.rs` 92-99 and 504-510. -/
def customImpl : Signed32Impl where
  as_ref := fun _ => 3
  try_from := fun v => if v = 3 then .ok (.variant 0 []) else .panic .unimplemented

/-- The impl of `Indexer`, `serde-xdr-test/src/lib.rs` 55-75. -/
def indexerImpl : IndexerImpl where
  index := fun i _ => .ok ([1, 3, 5, 7].getD i 0)
  name_by_index := fun v =>
    if v = 1 then .ok "A" else if v = 3 then .ok "B" else if v = 5 then .ok "C"
    else if v = 7 then .ok "D" else .panic .unimplemented

/-- The impls of `UnionI32`, `UnionU32` and `UnionEnum`, `serde-xdr-test/src/lib.rs` 77-117. -/
def unionImpl : UnionImpl where
  name_by_value := fun v =>
    let n : Option Nat := match v with
      | .i32 i => some i.toInt.toNat
      | .u32 u => some u.toNat
      | .variant i [] => some i
      | _ => none
    if n = some 1 then .ok "A" else if n = some 3 then .ok "B" else if n = some 5 then .ok "C"
    else if n = some 7 then .ok "D" else .panic .unimplemented

/-- The variants of the three unions, `serde-xdr-test/src/lib.rs` 32-54. -/
def arms (d : Ty) : List (String × Option (List Ty)) :=
  [("A", some [d]), ("B", some [d, .u8]), ("C", some [d, .tuple [.i32, .u32]]),
   ("D", some [d, .named "Struct1"])]

/-- The types of the tests, `serde-xdr/src/lib.rs` 30-105 and `serde-xdr-test/src/lib.rs` 9-54. -/
def env : Env := fun n =>
  match n with
  | "UnitStruct" => some .unitStruct
  | "UnitVariant" => some (.enum [("A", .unit)])
  | "NewTypeStruct" => some (.newtypeStruct .u8)
  | "NewTypeVariant" => some (.enum [("A", .newtype .u8)])
  | "TupleStruct" => some (.tupleStruct [.u8, .u8])
  | "TupleVariant" => some (.enum [("A", .tuple [.u8, .u8])])
  | "Struct" => some (.struct [("a", .u8), ("b", .u8)])
  | "StructVariant" => some (.enum [("A", .struct [("a", .u8), ("b", .u8)])])
  | "ArrayStruct" => some (.struct [("a", .array 2 .u8)])
  | "FixedOpaqueStruct" => some (.struct [("a", .opaqueFixed 2)])
  | "VariableOpaqueStruct" => some (.struct [("a", .opaqueVar)])
  | "VariableArray" => some (.struct [("data", .opaqueVar)])
  | "VariableOpaqueArray" => some (.struct [("a", .vec (.named "VariableArray"))])
  | "CustomEnum" => some (.enum [("C", .unit)])
  | "CustomEnumStruct" => some (.struct [("a", .signed32 "CustomEnum" customImpl)])
  | "Type" => some (.enum [("_Reserved0", .unit), ("W", .unit), ("_Reserved2", .unit), ("X", .unit),
      ("_Reserved4", .unit), ("Y", .unit), ("_Reserved6", .unit), ("Z", .unit)])
  | "Struct1" => some (.struct [("f0", .u8)])
  | "Indexer" => some (.indexer [("A", none), ("B", some [.u8]), ("C", some [.i32, .u32]),
      ("D", some [.named "Struct1"])] indexerImpl)
  | "UnionI32" => some (.union .i32 (arms .i32) unionImpl)
  | "UnionU32" => some (.union .u32 (arms .u32) unionImpl)
  | "UnionEnum" => some (.union (.named "Type") (arms (.named "Type")) unionImpl)
  | _ => none

/-- `from_bytes::<T>(&v).unwrap() == r`. -/
def Reads (t : Ty) (v : Bytes) (r : Val) : Prop := fromBytes env 5 t v = .ok r

/-- `to_bytes(&v).unwrap() == b`. -/
def Writes (t : Ty) (v : Val) (b : Bytes) : Prop := toBytes env t v = .ok b

/-! ## de, `serde-xdr/src/lib.rs` 107-431 -/

-- from_bytes_bool
example : Reads .bool [0x00, 0x00, 0x00, 0x00]
    (.bool false) := by rfl

-- from_bytes_bool
example : Reads .bool [0x00, 0x00, 0x00, 0x01]
    (.bool true) := by rfl

-- from_bytes_i8
example : Reads .i8 [0x00, 0x00, 0x00, 0x00]
    (.i8 0) := by rfl

-- from_bytes_i8
example : Reads .i8 [0xFF, 0xFF, 0xFF, 0x80]
    (.i8 (-128)) := by rfl

-- from_bytes_i8
example : Reads .i8 [0x00, 0x00, 0x00, 0x7F]
    (.i8 127) := by rfl

-- from_bytes_i16
example : Reads .i16 [0x00, 0x00, 0x00, 0x00]
    (.i16 0) := by rfl

-- from_bytes_i16
example : Reads .i16 [0xFF, 0xFF, 0x80, 0x00]
    (.i16 (-32768)) := by rfl

-- from_bytes_i16
example : Reads .i16 [0x00, 0x00, 0x7F, 0xFF]
    (.i16 32767) := by rfl

-- from_bytes_i32
example : Reads .i32 [0x00, 0x00, 0x00, 0x00]
    (.i32 0) := by rfl

-- from_bytes_i32
example : Reads .i32 [0x80, 0x00, 0x00, 0x00]
    (.i32 (-2147483648)) := by rfl

-- from_bytes_i32
example : Reads .i32 [0x7F, 0xFF, 0xFF, 0xFF]
    (.i32 2147483647) := by rfl

-- from_bytes_i64
example : Reads .i64 [0x00, 0x00, 0x00, 0x00, 0x00, 0x00, 0x00, 0x00]
    (.i64 0) := by rfl

-- from_bytes_i64
example : Reads .i64 [0x80, 0x00, 0x00, 0x00, 0x00, 0x00, 0x00, 0x00]
    (.i64 (-9223372036854775808)) := by rfl

-- from_bytes_i64
example : Reads .i64 [0x7F, 0xFF, 0xFF, 0xFF, 0xFF, 0xFF, 0xFF, 0xFF]
    (.i64 9223372036854775807) := by rfl

-- from_bytes_u8
example : Reads .u8 [0x00, 0x00, 0x00, 0x00]
    (.u8 0) := by rfl

-- from_bytes_u8
example : Reads .u8 [0x00, 0x00, 0x00, 0xFF]
    (.u8 255) := by rfl

-- from_bytes_u16
example : Reads .u16 [0x00, 0x00, 0x00, 0x00]
    (.u16 0) := by rfl

-- from_bytes_u16
example : Reads .u16 [0x00, 0x00, 0xFF, 0xFF]
    (.u16 65535) := by rfl

-- from_bytes_u32
example : Reads .u32 [0x00, 0x00, 0x00, 0x00]
    (.u32 0) := by rfl

-- from_bytes_u32
example : Reads .u32 [0xFF, 0xFF, 0xFF, 0xFF]
    (.u32 4294967295) := by rfl

-- from_bytes_u64
example : Reads .u64 [0x00, 0x00, 0x00, 0x00, 0x00, 0x00, 0x00, 0x00]
    (.u64 0) := by rfl

-- from_bytes_u64
example : Reads .u64 [0xFF, 0xFF, 0xFF, 0xFF, 0xFF, 0xFF, 0xFF, 0xFF]
    (.u64 18446744073709551615) := by rfl

-- from_bytes_f32
example : Reads .f32 [0x00, 0x00, 0x00, 0x00]
    (.f32 0) := by rfl

-- from_bytes_f32
example : Reads .f32 [0x41, 0x48, 0x00, 0x00]
    (.f32 0x41480000) := by rfl

-- from_bytes_f64
example : Reads .f64 [0x00, 0x00, 0x00, 0x00, 0x00, 0x00, 0x00, 0x00]
    (.f64 0) := by rfl

-- from_bytes_f64
example : Reads .f64 [0x40, 0x29, 0x00, 0x00, 0x00, 0x00, 0x00, 0x00]
    (.f64 0x4029000000000000) := by rfl

-- from_bytes_char
example : Reads .char [0x00, 0x00, 0x00, 0x61]
    (.char 'a') := by rfl

-- from_bytes_char
example : Reads .char [0x00, 0x00, 0x30, 0x42]
    (.char 'あ') := by rfl

-- from_bytes_string
example : Reads .string [0x00, 0x00, 0x00, 0x01, 0x61, 0x00, 0x00, 0x00]
    (.str ['a']) := by rfl

-- from_bytes_string
example : Reads .string [0x00, 0x00, 0x00, 0x03, 0xE3, 0x81, 0x82, 0x00]
    (.str ['あ']) := by rfl

-- from_bytes_string
example : Reads .string [0x00, 0x00, 0x00, 0x04, 0x61, 0x62, 0x63, 0x64]
    (.str ['a', 'b', 'c', 'd']) := by rfl

-- from_bytes_option
example : Reads (.option .u32) [0x00, 0x00, 0x00, 0x00]
    .none := by rfl

-- from_bytes_option
example : Reads (.option .u32) [0x00, 0x00, 0x00, 0x01, 0x00, 0x00, 0x00, 0x01]
    (.some (.u32 1)) := by rfl

-- from_bytes_unit
example : Reads .unit []
    .unit := by rfl

-- from_bytes_unit_struct
example : Reads (.named "UnitStruct") []
    .unit := by rfl

-- from_bytes_newtype_struct
example : Reads (.named "NewTypeStruct") [0x00, 0x00, 0x00, 0x01]
    (.seq [.u8 1]) := by rfl

-- from_bytes_seq
example : Reads (.vec .u32) [0x00, 0x00, 0x00, 0x03, 0x00, 0x00, 0x00, 0x01, 0x00, 0x00, 0x00, 0x02, 0x00, 0x00, 0x00, 0x03]
    (.seq [.u32 1, .u32 2, .u32 3]) := by rfl

-- from_bytes_tuple
example : Reads (.tuple [.u32, .u32, .u32]) [0x00, 0x00, 0x00, 0x01, 0x00, 0x00, 0x00, 0x02, 0x00, 0x00, 0x00, 0x03]
    (.seq [.u32 1, .u32 2, .u32 3]) := by rfl

-- from_bytes_tuple_struct
example : Reads (.named "TupleStruct") [0x00, 0x00, 0x00, 0x01, 0x00, 0x00, 0x00, 0x02]
    (.seq [.u8 1, .u8 2]) := by rfl

-- from_bytes_map
example : Reads (.map .u32 .u32) [0x00, 0x00, 0x00, 0x01, 0x00, 0x00, 0x00, 0x01, 0x00, 0x00, 0x00, 0x02]
    (.map [(.u32 1, .u32 2)]) := by rfl

-- from_bytes_struct
example : Reads (.named "Struct") [0x00, 0x00, 0x00, 0x01, 0x00, 0x00, 0x00, 0x02]
    (.seq [.u8 1, .u8 2]) := by rfl

-- from_bytes_enum_unit_variant
example : Reads (.named "UnitVariant") [0x00, 0x00, 0x00, 0x00]
    (.variant 0 []) := by rfl

-- from_bytes_enum_newtype_variant
example : Reads (.named "NewTypeVariant") [0x00, 0x00, 0x00, 0x00, 0x00, 0x00, 0x00, 0x01]
    (.variant 0 [.u8 1]) := by rfl

-- from_bytes_enum_tuple_variant
example : Reads (.named "TupleVariant") [0x00, 0x00, 0x00, 0x00, 0x00, 0x00, 0x00, 0x01, 0x00, 0x00, 0x00, 0x02]
    (.variant 0 [.u8 1, .u8 2]) := by rfl

-- from_bytes_enum_struct_variant
example : Reads (.named "StructVariant") [0x00, 0x00, 0x00, 0x00, 0x00, 0x00, 0x00, 0x01, 0x00, 0x00, 0x00, 0x02]
    (.variant 0 [.u8 1, .u8 2]) := by rfl

-- from_bytes_array_struct
example : Reads (.named "ArrayStruct") [0x00, 0x00, 0x00, 0x01, 0x00, 0x00, 0x00, 0x02]
    (.seq [.seq [.u8 1, .u8 2]]) := by rfl

-- from_bytes_fixed_opaque_struct
example : Reads (.named "FixedOpaqueStruct") [0x01, 0x02, 0x00, 0x00]
    (.seq [.bytes [1, 2]]) := by rfl

-- from_bytes_variable_opaque_struct
example : Reads (.named "VariableOpaqueStruct") [0x00, 0x00, 0x00, 0x02, 0x01, 0x02, 0x00, 0x00]
    (.seq [.bytes [1, 2]]) := by rfl

-- from_bytes_variable_opaque_array
example : Reads (.named "VariableOpaqueArray") [0x00, 0x00, 0x00, 0x03, 0x00, 0x00, 0x00, 0x01, 0x00, 0x00, 0x00, 0x00, 0x00, 0x00, 0x00, 0x02, 0x01, 0x02, 0x00, 0x00, 0x00, 0x00, 0x00, 0x03, 0x01, 0x02, 0x03, 0x00]
    (.seq [.seq [.seq [.bytes [0]], .seq [.bytes [1, 2]], .seq [.bytes [1, 2, 3]]]]) := by rfl

-- from_bytes_custom_enum_struct
example : Reads (.named "CustomEnumStruct") [0x00, 0x00, 0x00, 0x03]
    (.seq [.variant 0 []]) := by rfl

/-! ## ser, `serde-xdr/src/lib.rs` 518-829 -/

-- to_bytes_bool
example : Writes .bool (.bool false)
    [0x00, 0x00, 0x00, 0x00] := by rfl

-- to_bytes_bool
example : Writes .bool (.bool true)
    [0x00, 0x00, 0x00, 0x01] := by rfl

-- to_bytes_i8
example : Writes .i8 (.i8 0)
    [0x00, 0x00, 0x00, 0x00] := by rfl

-- to_bytes_i8
example : Writes .i8 (.i8 (-128))
    [0xFF, 0xFF, 0xFF, 0x80] := by rfl

-- to_bytes_i8
example : Writes .i8 (.i8 127)
    [0x00, 0x00, 0x00, 0x7F] := by rfl

-- to_bytes_i16
example : Writes .i16 (.i16 0)
    [0x00, 0x00, 0x00, 0x00] := by rfl

-- to_bytes_i16
example : Writes .i16 (.i16 (-32768))
    [0xFF, 0xFF, 0x80, 0x00] := by rfl

-- to_bytes_i16
example : Writes .i16 (.i16 32767)
    [0x00, 0x00, 0x7F, 0xFF] := by rfl

-- to_bytes_i32
example : Writes .i32 (.i32 0)
    [0x00, 0x00, 0x00, 0x00] := by rfl

-- to_bytes_i32
example : Writes .i32 (.i32 (-2147483648))
    [0x80, 0x00, 0x00, 0x00] := by rfl

-- to_bytes_i32
example : Writes .i32 (.i32 2147483647)
    [0x7F, 0xFF, 0xFF, 0xFF] := by rfl

-- to_bytes_i64
example : Writes .i64 (.i64 0)
    [0x00, 0x00, 0x00, 0x00, 0x00, 0x00, 0x00, 0x00] := by rfl

-- to_bytes_i64
example : Writes .i64 (.i64 (-9223372036854775808))
    [0x80, 0x00, 0x00, 0x00, 0x00, 0x00, 0x00, 0x00] := by rfl

-- to_bytes_i64
example : Writes .i64 (.i64 9223372036854775807)
    [0x7F, 0xFF, 0xFF, 0xFF, 0xFF, 0xFF, 0xFF, 0xFF] := by rfl

-- to_bytes_u8
example : Writes .u8 (.u8 0)
    [0x00, 0x00, 0x00, 0x00] := by rfl

-- to_bytes_u8
example : Writes .u8 (.u8 255)
    [0x00, 0x00, 0x00, 0xFF] := by rfl

-- to_bytes_u16
example : Writes .u16 (.u16 0)
    [0x00, 0x00, 0x00, 0x00] := by rfl

-- to_bytes_u16
example : Writes .u16 (.u16 65535)
    [0x00, 0x00, 0xFF, 0xFF] := by rfl

-- to_bytes_u32
example : Writes .u32 (.u32 0)
    [0x00, 0x00, 0x00, 0x00] := by rfl

-- to_bytes_u32
example : Writes .u32 (.u32 4294967295)
    [0xFF, 0xFF, 0xFF, 0xFF] := by rfl

-- to_bytes_u64
example : Writes .u64 (.u64 0)
    [0x00, 0x00, 0x00, 0x00, 0x00, 0x00, 0x00, 0x00] := by rfl

-- to_bytes_u64
example : Writes .u64 (.u64 18446744073709551615)
    [0xFF, 0xFF, 0xFF, 0xFF, 0xFF, 0xFF, 0xFF, 0xFF] := by rfl

-- to_bytes_f32
example : Writes .f32 (.f32 0)
    [0x00, 0x00, 0x00, 0x00] := by rfl

-- to_bytes_f32
example : Writes .f32 (.f32 0x41480000)
    [0x41, 0x48, 0x00, 0x00] := by rfl

-- to_bytes_f64
example : Writes .f64 (.f64 0)
    [0x00, 0x00, 0x00, 0x00, 0x00, 0x00, 0x00, 0x00] := by rfl

-- to_bytes_f64
example : Writes .f64 (.f64 0x4029000000000000)
    [0x40, 0x29, 0x00, 0x00, 0x00, 0x00, 0x00, 0x00] := by rfl

-- to_bytes_char
example : Writes .char (.char 'a')
    [0x00, 0x00, 0x00, 0x61] := by rfl

-- to_bytes_char
example : Writes .char (.char 'あ')
    [0x00, 0x00, 0x30, 0x42] := by rfl

-- to_bytes_str
example : Writes .string (.str ['a'])
    [0x00, 0x00, 0x00, 0x01, 0x61, 0x00, 0x00, 0x00] := by rfl

-- to_bytes_str
example : Writes .string (.str ['あ'])
    [0x00, 0x00, 0x00, 0x03, 0xE3, 0x81, 0x82, 0x00] := by rfl

-- to_bytes_str
example : Writes .string (.str ['a', 'b', 'c', 'd'])
    [0x00, 0x00, 0x00, 0x04, 0x61, 0x62, 0x63, 0x64] := by rfl

-- to_bytes_bytes
example : Writes .bytes (.bytes [0x61])
    [0x00, 0x00, 0x00, 0x01, 0x61, 0x00, 0x00, 0x00] := by rfl

-- to_bytes_none
example : Writes (.option .u8) .none
    [0x00, 0x00, 0x00, 0x00] := by rfl

-- to_bytes_some
example : Writes (.option .u8) (.some (.u8 2))
    [0x00, 0x00, 0x00, 0x01, 0x00, 0x00, 0x00, 0x02] := by rfl

-- to_bytes_unit
example : Writes .unit .unit
    [] := by rfl

-- to_bytes_unit_variant
example : Writes (.named "UnitVariant") (.variant 0 [])
    [0x00, 0x00, 0x00, 0x00] := by rfl

-- to_bytes_new_type_struct
example : Writes (.named "NewTypeStruct") (.seq [.u8 1])
    [0x00, 0x00, 0x00, 0x01] := by rfl

-- to_bytes_new_type_variant
example : Writes (.named "NewTypeVariant") (.variant 0 [.u8 1])
    [0x00, 0x00, 0x00, 0x00, 0x00, 0x00, 0x00, 0x01] := by rfl

-- to_bytes_opaque
example : Writes (.array 2 .u8) (.seq [.u8 0, .u8 0])
    [0x00, 0x00, 0x00, 0x00, 0x00, 0x00, 0x00, 0x00] := by rfl

-- to_bytes_seq
example : Writes (.vec (.named "NewTypeStruct")) (.seq [.seq [.u8 0], .seq [.u8 1]])
    [0x00, 0x00, 0x00, 0x02, 0x00, 0x00, 0x00, 0x00, 0x00, 0x00, 0x00, 0x01] := by rfl

-- to_bytes_tuple
example : Writes (.tuple [.i32, .i32]) (.seq [.i32 0, .i32 1])
    [0x00, 0x00, 0x00, 0x00, 0x00, 0x00, 0x00, 0x01] := by rfl

-- to_bytes_tuple
example : Writes (.array 2 .u32) (.seq [.u32 1, .u32 2])
    [0x00, 0x00, 0x00, 0x01, 0x00, 0x00, 0x00, 0x02] := by rfl

-- to_bytes_tuple_struct
example : Writes (.named "TupleStruct") (.seq [.u8 0, .u8 1])
    [0x00, 0x00, 0x00, 0x00, 0x00, 0x00, 0x00, 0x01] := by rfl

-- to_bytes_tuple_variant
example : Writes (.named "TupleVariant") (.variant 0 [.u8 0, .u8 1])
    [0x00, 0x00, 0x00, 0x00, 0x00, 0x00, 0x00, 0x00, 0x00, 0x00, 0x00, 0x01] := by rfl

-- to_bytes_map
example : Writes (.map .i32 .i32) (.map [(.i32 1, .i32 2)])
    [0x00, 0x00, 0x00, 0x01, 0x00, 0x00, 0x00, 0x01, 0x00, 0x00, 0x00, 0x02] := by rfl

-- to_bytes_struct
example : Writes (.named "Struct") (.seq [.u8 1, .u8 2])
    [0x00, 0x00, 0x00, 0x01, 0x00, 0x00, 0x00, 0x02] := by rfl

-- to_bytes_struct_variant
example : Writes (.named "StructVariant") (.variant 0 [.u8 1, .u8 2])
    [0x00, 0x00, 0x00, 0x00, 0x00, 0x00, 0x00, 0x01, 0x00, 0x00, 0x00, 0x02] := by rfl

-- to_bytes_array_struct
example : Writes (.named "ArrayStruct") (.seq [.seq [.u8 1, .u8 2]])
    [0x00, 0x00, 0x00, 0x01, 0x00, 0x00, 0x00, 0x02] := by rfl

-- to_bytes_fixed_opaque_struct
example : Writes (.named "FixedOpaqueStruct") (.seq [.bytes [1, 2]])
    [0x01, 0x02, 0x00, 0x00] := by rfl

-- to_bytes_variable_opaque_struct
example : Writes (.named "VariableOpaqueStruct") (.seq [.bytes [1, 2]])
    [0x00, 0x00, 0x00, 0x02, 0x01, 0x02, 0x00, 0x00] := by rfl

-- from_bytes_variable_opaque_array
example : Writes (.named "VariableOpaqueArray") (.seq [.seq [.seq [.bytes [0]], .seq [.bytes [1, 2]], .seq [.bytes [1, 2, 3]]]])
    [0x00, 0x00, 0x00, 0x03, 0x00, 0x00, 0x00, 0x01, 0x00, 0x00, 0x00, 0x00, 0x00, 0x00, 0x00, 0x02, 0x01, 0x02, 0x00, 0x00, 0x00, 0x00, 0x00, 0x03, 0x01, 0x02, 0x03, 0x00] := by rfl

-- from_bytes_custom_enum_struct
example : Writes (.named "CustomEnumStruct") (.seq [.variant 0 []])
    [0x00, 0x00, 0x00, 0x03] := by rfl

/-! ## the derive macros, `serde-xdr-test/src/lib.rs` 119-end -/

-- xdr_indexer_unit_variant
example : Writes (.named "Indexer") (.variant 0 [])
    [0x00, 0x00, 0x00, 0x01] := by rfl

-- xdr_indexer_unit_variant
example : Reads (.named "Indexer") [0x00, 0x00, 0x00, 0x01]
    (.variant 0 []) := by rfl

-- xdr_indexer_newtype_variant
example : Writes (.named "Indexer") (.variant 1 [.u8 11])
    [0x00, 0x00, 0x00, 0x03, 0x00, 0x00, 0x00, 0x0B] := by rfl

-- xdr_indexer_newtype_variant
example : Reads (.named "Indexer") [0x00, 0x00, 0x00, 0x03, 0x00, 0x00, 0x00, 0x0B]
    (.variant 1 [.u8 11]) := by rfl

-- xdr_indexer_tuple_variant
example : Writes (.named "Indexer") (.variant 2 [.i32 (-1), .u32 2])
    [0x00, 0x00, 0x00, 0x05, 0xFF, 0xFF, 0xFF, 0xFF, 0x00, 0x00, 0x00, 0x02] := by rfl

-- xdr_indexer_tuple_variant
example : Reads (.named "Indexer") [0x00, 0x00, 0x00, 0x05, 0xFF, 0xFF, 0xFF, 0xFF, 0x00, 0x00, 0x00, 0x02]
    (.variant 2 [.i32 (-1), .u32 2]) := by rfl

-- xdr_indexer_struct_variant
example : Writes (.named "Indexer") (.variant 3 [.seq [.u8 1]])
    [0x00, 0x00, 0x00, 0x07, 0x00, 0x00, 0x00, 0x01] := by rfl

-- xdr_indexer_struct_variant
example : Reads (.named "Indexer") [0x00, 0x00, 0x00, 0x07, 0x00, 0x00, 0x00, 0x01]
    (.variant 3 [.seq [.u8 1]]) := by rfl

-- xdr_union_i32_unit_variant
example : Writes (.named "UnionI32") (.variant 0 [.i32 1])
    [0x00, 0x00, 0x00, 0x01] := by rfl

-- xdr_union_i32_unit_variant
example : Reads (.named "UnionI32") [0x00, 0x00, 0x00, 0x01]
    (.variant 0 [.i32 1]) := by rfl

-- xdr_union_i32_newtype_variant
example : Writes (.named "UnionI32") (.variant 1 [.i32 3, .u8 11])
    [0x00, 0x00, 0x00, 0x03, 0x00, 0x00, 0x00, 0x0B] := by rfl

-- xdr_union_i32_newtype_variant
example : Reads (.named "UnionI32") [0x00, 0x00, 0x00, 0x03, 0x00, 0x00, 0x00, 0x0B]
    (.variant 1 [.i32 3, .u8 11]) := by rfl

-- xdr_union_i32_tuple_variant
example : Writes (.named "UnionI32") (.variant 2 [.i32 5, .seq [.i32 (-1), .u32 2]])
    [0x00, 0x00, 0x00, 0x05, 0xFF, 0xFF, 0xFF, 0xFF, 0x00, 0x00, 0x00, 0x02] := by rfl

-- xdr_union_i32_tuple_variant
example : Reads (.named "UnionI32") [0x00, 0x00, 0x00, 0x05, 0xFF, 0xFF, 0xFF, 0xFF, 0x00, 0x00, 0x00, 0x02]
    (.variant 2 [.i32 5, .seq [.i32 (-1), .u32 2]]) := by rfl

-- xdr_union_i32_struct_variant
example : Writes (.named "UnionI32") (.variant 3 [.i32 7, .seq [.u8 1]])
    [0x00, 0x00, 0x00, 0x07, 0x00, 0x00, 0x00, 0x01] := by rfl

-- xdr_union_i32_struct_variant
example : Reads (.named "UnionI32") [0x00, 0x00, 0x00, 0x07, 0x00, 0x00, 0x00, 0x01]
    (.variant 3 [.i32 7, .seq [.u8 1]]) := by rfl

-- xdr_union_u32_unit_variant
example : Writes (.named "UnionU32") (.variant 0 [.u32 1])
    [0x00, 0x00, 0x00, 0x01] := by rfl

-- xdr_union_u32_unit_variant
example : Reads (.named "UnionU32") [0x00, 0x00, 0x00, 0x01]
    (.variant 0 [.u32 1]) := by rfl

-- xdr_union_u32_newtype_variant
example : Writes (.named "UnionU32") (.variant 1 [.u32 3, .u8 11])
    [0x00, 0x00, 0x00, 0x03, 0x00, 0x00, 0x00, 0x0B] := by rfl

-- xdr_union_u32_newtype_variant
example : Reads (.named "UnionU32") [0x00, 0x00, 0x00, 0x03, 0x00, 0x00, 0x00, 0x0B]
    (.variant 1 [.u32 3, .u8 11]) := by rfl

-- xdr_union_u32_tuple_variant
example : Writes (.named "UnionU32") (.variant 2 [.u32 5, .seq [.i32 (-1), .u32 2]])
    [0x00, 0x00, 0x00, 0x05, 0xFF, 0xFF, 0xFF, 0xFF, 0x00, 0x00, 0x00, 0x02] := by rfl

-- xdr_union_u32_tuple_variant
example : Reads (.named "UnionU32") [0x00, 0x00, 0x00, 0x05, 0xFF, 0xFF, 0xFF, 0xFF, 0x00, 0x00, 0x00, 0x02]
    (.variant 2 [.u32 5, .seq [.i32 (-1), .u32 2]]) := by rfl

-- xdr_union_u32_struct_variant
example : Writes (.named "UnionU32") (.variant 3 [.u32 7, .seq [.u8 1]])
    [0x00, 0x00, 0x00, 0x07, 0x00, 0x00, 0x00, 0x01] := by rfl

-- xdr_union_u32_struct_variant
example : Reads (.named "UnionU32") [0x00, 0x00, 0x00, 0x07, 0x00, 0x00, 0x00, 0x01]
    (.variant 3 [.u32 7, .seq [.u8 1]]) := by rfl

-- xdr_union_enum_unit_variant
example : Writes (.named "UnionEnum") (.variant 0 [.variant 1 []])
    [0x00, 0x00, 0x00, 0x01] := by rfl

-- xdr_union_enum_unit_variant
example : Reads (.named "UnionEnum") [0x00, 0x00, 0x00, 0x01]
    (.variant 0 [.variant 1 []]) := by rfl

-- xdr_union_enum_newtype_variant
example : Writes (.named "UnionEnum") (.variant 1 [.variant 3 [], .u8 11])
    [0x00, 0x00, 0x00, 0x03, 0x00, 0x00, 0x00, 0x0B] := by rfl

-- xdr_union_enum_newtype_variant
example : Reads (.named "UnionEnum") [0x00, 0x00, 0x00, 0x03, 0x00, 0x00, 0x00, 0x0B]
    (.variant 1 [.variant 3 [], .u8 11]) := by rfl

-- xdr_union_enum_tuple_variant
example : Writes (.named "UnionEnum") (.variant 2 [.variant 5 [], .seq [.i32 (-1), .u32 2]])
    [0x00, 0x00, 0x00, 0x05, 0xFF, 0xFF, 0xFF, 0xFF, 0x00, 0x00, 0x00, 0x02] := by rfl

-- xdr_union_enum_tuple_variant
example : Reads (.named "UnionEnum") [0x00, 0x00, 0x00, 0x05, 0xFF, 0xFF, 0xFF, 0xFF, 0x00, 0x00, 0x00, 0x02]
    (.variant 2 [.variant 5 [], .seq [.i32 (-1), .u32 2]]) := by rfl

-- xdr_union_enum_struct_variant
example : Writes (.named "UnionEnum") (.variant 3 [.variant 7 [], .seq [.u8 1]])
    [0x00, 0x00, 0x00, 0x07, 0x00, 0x00, 0x00, 0x01] := by rfl

-- xdr_union_enum_struct_variant
example : Reads (.named "UnionEnum") [0x00, 0x00, 0x00, 0x07, 0x00, 0x00, 0x00, 0x01]
    (.variant 3 [.variant 7 [], .seq [.u8 1]]) := by rfl

end Xdr.Tests
