import Verif.Model.KeepSer
/-!
# "Every `Serialize` implementation", including those that catch errors, and what a failure leaves

`Written k`: `k` is what some `Serialize` impl does when driven by this serializer, where the impl may match on the
`Result` of any nested call and go on as it likes (`attempt`).

The methods that only pass the serializer on (`serialize_unit`, `serialize_newtype_struct`, `serialize_tuple`,
`serialize_tuple_struct`, `serialize_struct`, the elements and fields, and `end`) have no clause: they are what they
are given.
-/

namespace Xdr

inductive Written : {α : Type} → K α → Prop
  | pure {α : Type} (a : α) : Written (pure a : K α)
  | custom {α : Type} (msg : String) : Written (K.fail (.custom msg) : K α)
  | panic {α : Type} (p : PanicSite) : Written (K.panic p : K α)
  | bind {α β : Type} {m : K α} {f : α → K β} : Written m → (∀ a, Written (f a)) → Written (m >>= f)
  | attempt {α : Type} {m : K α} : Written m → Written (K.attempt m)
  /-- An error handed on later. -/
  | rethrow {α : Type} (r : Except Error α) : Written (K.ofExcept r)
  /-- `serialize_bool`, `_u8`, `_u16`, `_u32`, `_f32`, `_char`, `_none`, `_some`. -/
  | u32 (v : UInt32) : Written (serialize_u32K v)
  /-- `serialize_i8`, `_i16`, `_i32`. -/
  | i32 (v : Int32) : Written (serialize_i32K v)
  /-- `serialize_u64`, `_f64`. -/
  | u64 (v : UInt64) : Written (serialize_u64K v)
  | i64 (v : Int64) : Written (serialize_i64K v)
  /-- `serialize_bytes`, `_str`. -/
  | bytes (v : Bytes) : Written (serialize_bytesK v)
  /-- `serialize_unit_variant`, `_newtype_variant`, `_tuple_variant`, `_struct_variant`. -/
  | index (i : UInt32) : Written (serialize_indexK i)
  /-- `serialize_seq`, `_map`. -/
  | count (len : Option Nat) : Written (serialize_countK len)

mutual
/-- The calls of a call tree in order, each without what is inside it. -/
def SVal.parts : SVal → List SVal
  | .some v => .u32 1 :: v.parts
  | .newtypeStruct _ v => v.parts
  | .newtypeVariant name i var v => .unitVariant name i var :: v.parts
  | .seq len es => .seq len [] :: partsList es
  | .tuple _ es => partsList es
  | .tupleStruct _ _ es => partsList es
  | .tupleVariant name i var _ es => .unitVariant name i var :: partsList es
  | .map len es => .map len [] :: partsEntries es
  | .struct _ _ fs => partsFields fs
  | .structVariant name i var _ fs => .unitVariant name i var :: partsFields fs
  | v => [v]

def partsList : List SVal → List SVal
  | [] => []
  | v :: vs => v.parts ++ partsList vs

def partsEntries : List (SVal × SVal) → List SVal
  | [] => []
  | (k, v) :: es => k.parts ++ (v.parts ++ partsEntries es)

def partsFields : List (String × SVal) → List SVal
  | [] => []
  | (_, v) :: fs => v.parts ++ partsFields fs
end

end Xdr
