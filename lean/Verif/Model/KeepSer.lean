import Verif.Model.Keep
import Verif.Model.Ser
/-!
# `serde-xdr/src/ser.rs` with the output a failing call leaves behind

`Ser.lean` drops the output when a call fails: with `?` everywhere nothing can be seen of it. A `Serialize`
impl may however match on the `Result` of `serialize_element` and its like, which borrow the serializer, and go
on. Here the methods are given once more with the output in every case; the state of `K` is the output.
-/

namespace Xdr

/-- `self.output.extend_from_slice(..)`. `ser.rs` 42-99. -/
def emitK (bs : Bytes) : K Unit := fun out => (.ok (), out ++ bs)

/-- `ser.rs` 60-63; 29-32, 52-54, 56-58 and 80-82 convert and call it, 70-73 is the same on bit patterns. -/
def serialize_u32K (v : UInt32) : K Unit := emitK (be32 v)

/-- `ser.rs` 42-45; 34-36 and 38-40 convert and call it. -/
def serialize_i32K (v : Int32) : K Unit := emitK (be32 v.toUInt32)

/-- `ser.rs` 47-50. -/
def serialize_i64K (v : Int64) : K Unit := emitK (be64 v.toUInt64)

/-- `ser.rs` 65-68; 75-78 is the same on bit patterns. -/
def serialize_u64K (v : UInt64) : K Unit := emitK (be64 v)

/-- `ser.rs` 89-99; 84-87 calls it with the bytes of the text. -/
def serialize_bytesK (v : Bytes) : K Unit := do
  let size := v.length
  let padding_size := 4 - size % 4
  serialize_u32K (UInt32.ofNat size)
  emitK v
  if padding_size < 4 then emitK (List.replicate padding_size 0) else pure ()

/-- `self.serialize_i32(variant_index.try_into()?)`, `ser.rs` 122-129, and the beginning of 142-154, 174-183 and
199-208: the conversion comes before anything is written. -/
def serialize_indexK (variant_index : UInt32) : K Unit :=
  if variant_index.toNat < 2 ^ 31 then serialize_i32K (Int32.ofNat variant_index.toNat) else K.fail .convert

/-- `ser.rs` 156-160 and 185-189: without a length, the error comes before anything is written. -/
def serialize_countK (len : Option Nat) : K Unit :=
  match len with
  | none => K.fail .notSupported
  | some size => serialize_u32K (UInt32.ofNat size)

mutual
/-- Run a call tree (`SVal`, in which no result is caught): which `ser.rs` method each call reaches. `ser.rs`
17-328. -/
def SVal.serializeK : SVal → K Unit
  | .bool v => serialize_u32K (if v then 1 else 0)
  | .i8 v => serialize_i32K v.toInt32
  | .i16 v => serialize_i32K v.toInt32
  | .i32 v => serialize_i32K v
  | .i64 v => serialize_i64K v
  | .i128 _ => K.fail (.custom "i128 is not supported")
  | .u8 v => serialize_u32K v.toUInt32
  | .u16 v => serialize_u32K v.toUInt32
  | .u32 v => serialize_u32K v
  | .u64 v => serialize_u64K v
  | .u128 _ => K.fail (.custom "u128 is not supported")
  | .f32 v => serialize_u32K v
  | .f64 v => serialize_u64K v
  | .char v => serialize_u32K v.val
  | .str v => serialize_bytesK (utf8Bytes v)
  | .bytes v => serialize_bytesK v
  | .none => serialize_u32K 0
  | .some v => do
    serialize_u32K 1
    v.serializeK
  | .unit => pure ()
  | .unitStruct _ => pure ()
  | .unitVariant _ i _ => serialize_indexK i
  | .newtypeStruct _ v => v.serializeK
  | .newtypeVariant _ i _ v => do
    serialize_indexK i
    v.serializeK
  | .seq len es => do
    serialize_countK len
    serializeListK es
  | .tuple _ es => serializeListK es
  | .tupleStruct _ _ es => serializeListK es
  | .tupleVariant _ i _ _ es => do
    serialize_indexK i
    serializeListK es
  | .map len es => do
    serialize_countK len
    serializeEntriesK es
  | .struct _ _ fs => serializeFieldsK fs
  | .structVariant _ i _ _ fs => do
    serialize_indexK i
    serializeFieldsK fs
  | .fail msg => K.fail (.custom msg)
  | .panic p => K.panic p

/-- The elements in order: `serialize_element` and `serialize_field` of `ser.rs` 233-247 and 281-328. -/
def serializeListK : List SVal → K Unit
  | [] => pure ()
  | v :: vs => do
    v.serializeK
    serializeListK vs

/-- The entries in order: `ser.rs` 210-231. -/
def serializeEntriesK : List (SVal × SVal) → K Unit
  | [] => pure ()
  | (k, v) :: es => do
    k.serializeK
    v.serializeK
    serializeEntriesK es

/-- The fields in order: `ser.rs` 249-279. -/
def serializeFieldsK : List (String × SVal) → K Unit
  | [] => pure ()
  | (_, v) :: fs => do
    v.serializeK
    serializeFieldsK fs
end

/-- `to_bytes`, `ser.rs` 8-15. -/
def to_bytesK (k : K Unit) : Res Bytes :=
  match k [] with
  | (.ok _, out) => .ok out
  | (.err e, _) => .err e
  | (.panic p, _) => .panic p
  | (.depth, _) => .depth

end Xdr
