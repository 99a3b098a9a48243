import Verif.Spec.Rfc4506
import Verif.Model.Types
/-!
# Which XDR value a Rust value stands for

The table of `/repo/README.md` 17-35, with `XdrIndexer` and `XdrUnion` enums as discriminated unions.
`none`: the value is not a value of the type, or a user function failed.
-/

namespace Xdr

open Rfc (XVal)

mutual
def toXdr (env : Env) : Ty → Val → Option XVal
  | .bool, .bool v => some (.bool v)
  | .i8, .i8 v => some (.int v.toInt)
  | .i16, .i16 v => some (.int v.toInt)
  | .i32, .i32 v => some (.int v.toInt)
  | .i64, .i64 v => some (.hyper v.toInt)
  | .u8, .u8 v => some (.uint v.toNat)
  | .u16, .u16 v => some (.uint v.toNat)
  | .u32, .u32 v => some (.uint v.toNat)
  | .u64, .u64 v => some (.uhyper v.toNat)
  | .f32, .f32 v => some (.float v.toNat)
  | .f64, .f64 v => some (.double v.toNat)
  | .char, .char v => some (.uint v.toNat)
  | .string, .str v => some (.string (utf8Bytes v))
  | .bytes, .bytes v => some (.opaqueVar v)
  | .option _, .none => some .optNone
  | .option t, .some v => (toXdr env t v).map .optSome
  | .unit, .unit => some .void
  | .vec t, .seq vs => (toXdrAll env t vs).map .arrayVar
  | .array n t, .seq vs => if vs.length = n then (toXdrAll env t vs).map .arrayFixed else none
  | .tuple ts, .seq vs => (toXdrEach env ts vs).map .struct
  | .map k t, .map es =>
    if distinctKeys Val.same es then (toXdrEntries env k t es).map .arrayVar else none
  | .opaqueFixed n, .bytes v => if v.length = n then some (.opaqueFixed v) else none
  | .opaqueVar, .bytes v => some (.opaqueVar v)
  | .signed32 name impl, .variant i vs =>
    match env name with
    | some (.enum vars) =>
      match vars[i]?, vs with
      | some (_, .unit), [] => some (.enum (impl.as_ref (.variant i [])).toInt)
      | _, _ => none
    | _ => none
  | .named name, v =>
    match env name with
    | none => none
    | some d =>
      match d, v with
      | .unitStruct, .unit => some .void
      | .newtypeStruct t, .seq [v] => (toXdr env t v).map fun x => .struct [x]
      | .tupleStruct ts, .seq vs => (toXdrEach env ts vs).map .struct
      | .struct fs, .seq vs => (toXdrEach env (fs.map (·.2)) vs).map .struct
      | .enum vars, .variant i vs =>
        match vars[i]? with
        | none => none
        | some (_, sh) =>
          match sh, vs with
          | .unit, [] => some (.enum i)
          | .newtype t, [v] => (toXdr env t v).map (.union (.enum i))
          | .tuple ts, vs => (toXdrEach env ts vs).map fun xs => .union (.enum i) (.struct xs)
          | .struct fs, vs =>
            (toXdrEach env (fs.map (·.2)) vs).map fun xs => .union (.enum i) (.struct xs)
          | _, _ => none
      | .indexer vars impl, .variant i vs =>
        match impl.index i vs, vars[i]? with
        | .ok idx, some (_, none) => if vs.isEmpty then some (.union (.enum idx.toInt) .void) else none
        | .ok idx, some (_, some ts) =>
          (toXdrEach env ts vs).map fun xs => .union (.enum idx.toInt) (.struct xs)
        | _, _ => none
      | .union _ vars _, .variant i vs =>
        match vars[i]? with
        | none => none
        -- a unit variant of an `XdrUnion` enum has no discriminant to write
        | some (_, none) => if vs.isEmpty then some .void else none
        | some (_, some ts) =>
          match toXdrEach env ts vs with
          | some (d :: xs) => some (.union d (.struct xs))
          | some [] => some .void
          | none => none
      | _, _ => none
  | _, _ => none

/-- Elements of a `Vec` or array. -/
def toXdrAll (env : Env) (t : Ty) : List Val → Option (List XVal)
  | [] => some []
  | v :: vs =>
    match toXdr env t v, toXdrAll env t vs with
    | some x, some xs => some (x :: xs)
    | _, _ => none

/-- Members of a product. -/
def toXdrEach (env : Env) : List Ty → List Val → Option (List XVal)
  | [], [] => some []
  | t :: ts, v :: vs =>
    match toXdr env t v, toXdrEach env ts vs with
    | some x, some xs => some (x :: xs)
    | _, _ => none
  | _, _ => none

/-- Entries of a map: structures of key and value. -/
def toXdrEntries (env : Env) (k t : Ty) : List (Val × Val) → Option (List XVal)
  | [] => some []
  | (a, b) :: es =>
    match toXdr env k a, toXdr env t b, toXdrEntries env k t es with
    | some x, some y, some xs => some (.struct [x, y] :: xs)
    | _, _, _ => none
end

end Xdr
