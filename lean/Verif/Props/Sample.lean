import Verif.Spec.Fits
/-! # A sample program, for the examples beside the theorems -/

namespace Xdr.Sample

/-- Type definitions: a linked list, an enum, an `XdrIndexer` enum, an `XdrUnion` enum. -/
def env : Env := fun name =>
  if name = "Entry" then
    some (.struct [("item", .string), ("next", .option (.named "Entry"))])
  else if name = "Color" then
    some (.enum [("Red", .unit), ("Tint", .newtype (.vec .u16)), ("Mix", .tuple [.u8, .i64])])
  else if name = "Ix" then
    some (.indexer [("A", none), ("B", some [.u32, .bytes])]
      { index := fun i _ => .ok (if i = 0 then -3 else 9)
        name_by_index := fun i =>
          if i = -3 then .ok "A" else if i = 9 then .ok "B" else .err .convert })
  else if name = "Un" then
    some (.union .i32 [("One", some [.i32, .string]), ("Other", some [.i32])]
      { name_by_value := fun v =>
          match v with
          | .i32 1 => .ok "One"
          | _ => .ok "Other" })
  else none

def list : Val := .seq [.str "ab".toList, .some (.seq [.str "é".toList, .none])]

/-- A tuple exercising most of the model. -/
def ty : Ty := .tuple [.named "Entry", .named "Color", .named "Ix", .named "Un",
  .map .u8 .bool, .opaqueFixed 3, .opaqueVar, .array 2 .i16, .option .u64, .char]

def val : Val := .seq [list, .variant 1 [.seq [.u16 258, .u16 1]], .variant 1 [.u32 5, .bytes [1]],
  .variant 0 [.i32 1, .str ['x']], .map [(.u8 1, .bool true), (.u8 0, .bool false)],
  .bytes [1, 2, 3], .bytes [255], .seq [.i16 (-1), .i16 2], .none, .char 'λ']

def bytes : Bytes :=
  [0, 0, 0, 2, 97, 98, 0, 0,  0, 0, 0, 1,  0, 0, 0, 2, 195, 169, 0, 0,  0, 0, 0, 0,
   0, 0, 0, 1,  0, 0, 0, 2,  0, 0, 1, 2,  0, 0, 0, 1,
   0, 0, 0, 9,  0, 0, 0, 5,  0, 0, 0, 1,  1, 0, 0, 0,
   0, 0, 0, 1,  0, 0, 0, 1,  120, 0, 0, 0,
   0, 0, 0, 2,  0, 0, 0, 1,  0, 0, 0, 1,  0, 0, 0, 0,  0, 0, 0, 0,
   1, 2, 3, 0,  0, 0, 0, 1,  255, 0, 0, 0,
   255, 255, 255, 255,  0, 0, 0, 2,  0, 0, 0, 0,  0, 0, 3, 187]

theorem toBytes_val : toBytes env ty val = .ok bytes := by decide +kernel

theorem fits_val : Fits env ty val := by
  simp [ty, val, list, Fits, FitsEach, FitsEntries, FitsAll, env, utf8Bytes]
  decide

end Xdr.Sample
