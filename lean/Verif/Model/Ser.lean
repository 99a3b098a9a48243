import Verif.Model.Utf8
/-!
# `serde-xdr/src/ser.rs`

Every method of the `Serializer` is one definition. A `Serialize` impl is represented by the tree of
serializer calls it makes (`SVal`); running the tree is `SVal.serialize`.
-/

namespace Xdr

/-- What every serializer method is: it extends `output` or fails. `ser.rs` 17-19. -/
abbrev Ser := M Unit

/-- `self.output.extend_from_slice(..)`. `ser.rs` 42-99. -/
def emit (bs : Bytes) : Ser := fun out => .ok ((), out ++ bs)

/-- `ser.rs` 60-63. -/
def serialize_u32 (v : UInt32) : Ser := emit (be32 v)

/-- `ser.rs` 42-45: `i32::to_be_bytes` is `u32::to_be_bytes` of the same bits. -/
def serialize_i32 (v : Int32) : Ser := emit (be32 v.toUInt32)

/-- `ser.rs` 29-32. -/
def serialize_bool (v : Bool) : Ser := serialize_u32 (if v then 1 else 0)

/-- `ser.rs` 34-36 (`v as i32` sign-extends). -/
def serialize_i8 (v : Int8) : Ser := serialize_i32 v.toInt32

/-- `ser.rs` 38-40. -/
def serialize_i16 (v : Int16) : Ser := serialize_i32 v.toInt32

/-- `ser.rs` 47-50. -/
def serialize_i64 (v : Int64) : Ser := emit (be64 v.toUInt64)

/-- `ser.rs` 52-54 (`v as u32` zero-extends). -/
def serialize_u8 (v : UInt8) : Ser := serialize_u32 v.toUInt32

/-- `ser.rs` 56-58. -/
def serialize_u16 (v : UInt16) : Ser := serialize_u32 v.toUInt32

/-- `ser.rs` 65-68. -/
def serialize_u64 (v : UInt64) : Ser := emit (be64 v)

/-- `ser.rs` 70-73; the argument is the bit pattern of the float. -/
def serialize_f32 (bits : UInt32) : Ser := emit (be32 bits)

/-- `ser.rs` 75-78; the argument is the bit pattern of the float. -/
def serialize_f64 (bits : UInt64) : Ser := emit (be64 bits)

/-- `ser.rs` 80-82. -/
def serialize_char (v : Char) : Ser := serialize_u32 v.val

/-- `ser.rs` 89-99. `size as u32` keeps the low 32 bits of the length. -/
def serialize_bytes (v : Bytes) : Ser := do
  let size := v.length
  let padding_size := 4 - size % 4
  serialize_u32 (UInt32.ofNat size)
  emit v
  if padding_size < 4 then emit (List.replicate padding_size 0) else pure ()

/-- `ser.rs` 84-87. -/
def serialize_str (v : List Char) : Ser := serialize_bytes (utf8Bytes v)

/-- `ser.rs` 101-104. -/
def serialize_none : Ser := serialize_u32 0

/-- `ser.rs` 106-112. -/
def serialize_some (v : Ser) : Ser := do
  serialize_u32 1
  v

/-- `ser.rs` 114-116. -/
def serialize_unit : Ser := pure ()

/-- `ser.rs` 118-120. -/
def serialize_unit_struct (_name : String) : Ser := pure ()

/-- `u32 → i32` `try_into` with `TryFromIntError` mapped to `Convert`: `error.rs` 45-49. -/
def tryIntoI32 (v : UInt32) : M Int32 :=
  if v.toNat < 2 ^ 31 then pure (Int32.ofNat v.toNat) else M.fail .convert

/-- `ser.rs` 122-129. -/
def serialize_unit_variant (_name : String) (variant_index : UInt32) (_variant : String) : Ser := do
  serialize_i32 (← tryIntoI32 variant_index)

/-- `ser.rs` 131-140. -/
def serialize_newtype_struct (_name : String) (value : Ser) : Ser := value

/-- `ser.rs` 142-154. -/
def serialize_newtype_variant (_name : String) (variant_index : UInt32) (_variant : String)
    (value : Ser) : Ser := do
  serialize_i32 (← tryIntoI32 variant_index)
  value

/-- `ser.rs` 156-160. -/
def serialize_seq (len : Option Nat) : Ser :=
  match len with
  | none => M.fail .notSupported
  | some size => serialize_u32 (UInt32.ofNat size)

/-- `ser.rs` 162-164. -/
def serialize_tuple (_len : Nat) : Ser := pure ()

/-- `ser.rs` 166-172. -/
def serialize_tuple_struct (_name : String) (_len : Nat) : Ser := pure ()

/-- `ser.rs` 174-183. -/
def serialize_tuple_variant (_name : String) (variant_index : UInt32) (_variant : String)
    (_len : Nat) : Ser := do
  serialize_i32 (← tryIntoI32 variant_index)

/-- `ser.rs` 185-189. -/
def serialize_map (len : Option Nat) : Ser :=
  match len with
  | none => M.fail .notSupported
  | some size => serialize_u32 (UInt32.ofNat size)

/-- `ser.rs` 191-197. -/
def serialize_struct (_name : String) (_len : Nat) : Ser := pure ()

/-- `ser.rs` 199-208. -/
def serialize_struct_variant (_name : String) (variant_index : UInt32) (_variant : String)
    (_len : Nat) : Ser := do
  serialize_i32 (← tryIntoI32 variant_index)

/-! The compound serializers: each `serialize_*` runs the child, each `end` does nothing. -/

/-- `ser.rs` 215-220. -/
def SerializeMap_key (key : Ser) : Ser := key
/-- `ser.rs` 222-227. -/
def SerializeMap_value (value : Ser) : Ser := value
/-- `ser.rs` 229-231. -/
def SerializeMap_end : Ser := pure ()
/-- `ser.rs` 238-243. -/
def SerializeSeq_element (value : Ser) : Ser := value
/-- `ser.rs` 245-247. -/
def SerializeSeq_end : Ser := pure ()
/-- `ser.rs` 254-259. -/
def SerializeStruct_field (_key : String) (value : Ser) : Ser := value
/-- `ser.rs` 261-263. -/
def SerializeStruct_end : Ser := pure ()
/-- `ser.rs` 270-275. -/
def SerializeStructVariant_field (_key : String) (value : Ser) : Ser := value
/-- `ser.rs` 277-279. -/
def SerializeStructVariant_end : Ser := pure ()
/-- `ser.rs` 286-291. -/
def SerializeTuple_element (value : Ser) : Ser := value
/-- `ser.rs` 293-295. -/
def SerializeTuple_end : Ser := pure ()
/-- `ser.rs` 302-307. -/
def SerializeTupleStruct_field (value : Ser) : Ser := value
/-- `ser.rs` 309-311. -/
def SerializeTupleStruct_end : Ser := pure ()
/-- `ser.rs` 318-323. -/
def SerializeTupleVariant_field (value : Ser) : Ser := value
/-- `ser.rs` 325-327. -/
def SerializeTupleVariant_end : Ser := pure ()

/-- The calls a `Serialize` impl makes, as a finite tree. Constructors are the methods of
`serde::Serializer`; `i128`/`u128` use serde's default methods; `fail` is an impl returning
`Err(ser::Error::custom(msg))`, `panic` an impl that panics.
Simplification: an impl that inspects a returned error and goes on is not represented here; see `KeepSer.lean`. -/
inductive SVal where
  | bool (v : Bool)
  | i8 (v : Int8) | i16 (v : Int16) | i32 (v : Int32) | i64 (v : Int64) | i128 (v : Int)
  | u8 (v : UInt8) | u16 (v : UInt16) | u32 (v : UInt32) | u64 (v : UInt64) | u128 (v : Nat)
  | f32 (bits : UInt32) | f64 (bits : UInt64)
  | char (v : Char) | str (v : List Char) | bytes (v : Bytes)
  | none | some (v : SVal)
  | unit | unitStruct (name : String)
  | unitVariant (name : String) (index : UInt32) (variant : String)
  | newtypeStruct (name : String) (v : SVal)
  | newtypeVariant (name : String) (index : UInt32) (variant : String) (v : SVal)
  | seq (len : Option Nat) (elems : List SVal)
  | tuple (len : Nat) (elems : List SVal)
  | tupleStruct (name : String) (len : Nat) (fields : List SVal)
  | tupleVariant (name : String) (index : UInt32) (variant : String) (len : Nat)
      (fields : List SVal)
  | map (len : Option Nat) (entries : List (SVal × SVal))
  | struct (name : String) (len : Nat) (fields : List (String × SVal))
  | structVariant (name : String) (index : UInt32) (variant : String) (len : Nat)
      (fields : List (String × SVal))
  | fail (msg : String)
  | panic (site : PanicSite)
deriving Inhabited

/-- Run one call per child, in order (the loops in serde's and the derived `Serialize` impls). -/
def forEach {α : Type} (f : α → Ser) : List α → Ser
  | [] => pure ()
  | c :: cs => do
    f c
    forEach f cs

mutual
/-- Run a call tree: which `ser.rs` method each call reaches. -/
def SVal.serialize : SVal → Ser
  | .bool v => serialize_bool v
  | .i8 v => serialize_i8 v
  | .i16 v => serialize_i16 v
  | .i32 v => serialize_i32 v
  | .i64 v => serialize_i64 v
  -- default method of the serde trait: an error
  | .i128 _ => M.fail (.custom "i128 is not supported")
  | .u8 v => serialize_u8 v
  | .u16 v => serialize_u16 v
  | .u32 v => serialize_u32 v
  | .u64 v => serialize_u64 v
  | .u128 _ => M.fail (.custom "u128 is not supported")
  | .f32 v => serialize_f32 v
  | .f64 v => serialize_f64 v
  | .char v => serialize_char v
  | .str v => serialize_str v
  | .bytes v => serialize_bytes v
  | .none => serialize_none
  | .some v => serialize_some v.serialize
  | .unit => serialize_unit
  | .unitStruct name => serialize_unit_struct name
  | .unitVariant name i var => serialize_unit_variant name i var
  | .newtypeStruct name v => serialize_newtype_struct name v.serialize
  | .newtypeVariant name i var v => serialize_newtype_variant name i var v.serialize
  | .seq len es => do
    serialize_seq len
    forEach SerializeSeq_element (serializeList es)
    SerializeSeq_end
  | .tuple len es => do
    serialize_tuple len
    forEach SerializeTuple_element (serializeList es)
    SerializeTuple_end
  | .tupleStruct name len es => do
    serialize_tuple_struct name len
    forEach SerializeTupleStruct_field (serializeList es)
    SerializeTupleStruct_end
  | .tupleVariant name i var len es => do
    serialize_tuple_variant name i var len
    forEach SerializeTupleVariant_field (serializeList es)
    SerializeTupleVariant_end
  | .map len es => do
    serialize_map len
    forEach (fun (kv : Ser × Ser) => do
      SerializeMap_key kv.1
      SerializeMap_value kv.2) (serializeEntries es)
    SerializeMap_end
  | .struct name len fs => do
    serialize_struct name len
    forEach (fun (f : String × Ser) => SerializeStruct_field f.1 f.2) (serializeFields fs)
    SerializeStruct_end
  | .structVariant name i var len fs => do
    serialize_struct_variant name i var len
    forEach (fun (f : String × Ser) => SerializeStructVariant_field f.1 f.2) (serializeFields fs)
    SerializeStructVariant_end
  | .fail msg => M.fail (.custom msg)
  | .panic p => M.panic p

/-- The children of a call as computations. Plumbing of `SVal.serialize`. -/
def serializeList : List SVal → List Ser
  | [] => []
  | v :: vs => v.serialize :: serializeList vs

/-- The entries of a map call as computations. Plumbing of `SVal.serialize`. -/
def serializeEntries : List (SVal × SVal) → List (Ser × Ser)
  | [] => []
  | (k, v) :: es => (k.serialize, v.serialize) :: serializeEntries es

/-- The named fields of a struct call as computations. Plumbing of `SVal.serialize`. -/
def serializeFields : List (String × SVal) → List (String × Ser)
  | [] => []
  | (n, v) :: fs => (n, v.serialize) :: serializeFields fs
end

/-- `to_bytes`, `ser.rs` 8-15: start with an empty output, run the impl, return the output. -/
def to_bytes (value : SVal) : Res Bytes :=
  match value.serialize [] with
  | .ok (_, out) => .ok out
  | .err e => .err e
  | .panic p => .panic p
  | .depth => .depth

end Xdr
