import Verif.Model.Opaque
/-!
# Rust types, their values, and their `Serialize` / `Deserialize` impls

`Ty` and `Def` are the Rust types serde-xdr is used with: std types, structs and enums with
`#[derive(Serialize, Deserialize)]`, fields with `#[serde(with = ..)]` for the three helper modules of
serde-xdr, and enums with `#[derive(XdrIndexer)]` / `#[derive(XdrUnion)]`. `Box<T>` is transparent for
serde, so recursive types are definitions that mention their own name.

`present` is the `Serialize` impl of a type (which calls it makes for a value), `deTy` its
`Deserialize` impl (which deserializer methods it calls with which visitor).
-/

namespace Xdr

/-- Rust values. `seq` stands for every product (Vec, array, tuple, struct, newtype);
`map` lists the entries in iteration order; `variant i fields` is the i-th variant of an enum. -/
inductive Val where
  | bool (v : Bool)
  | i8 (v : Int8) | i16 (v : Int16) | i32 (v : Int32) | i64 (v : Int64)
  | u8 (v : UInt8) | u16 (v : UInt16) | u32 (v : UInt32) | u64 (v : UInt64)
  | f32 (bits : UInt32) | f64 (bits : UInt64)
  | char (v : Char) | str (v : List Char) | bytes (v : Bytes)
  | none | some (v : Val)
  | unit
  | seq (vs : List Val)
  | map (es : List (Val × Val))
  | variant (index : Nat) (fields : List Val)
deriving Inhabited

/-- User-supplied `AsRef<i32>` and `TryFrom<i32>` of an enum used with `primitive::signed32`
(`primitive.rs` 5-20). -/
structure Signed32Impl where
  as_ref : Val → Int32
  try_from : Int32 → Res Val

/-- Rust types appearing in fields and elements. -/
inductive Ty where
  | bool
  | i8 | i16 | i32 | i64 | u8 | u16 | u32 | u64
  | f32 | f64
  | char
  /-- `String`. -/
  | string
  /-- A type using serde's byte buffers (`serde_bytes::ByteBuf`). -/
  | bytes
  | option (t : Ty)
  | unit
  /-- `Vec<T>`. -/
  | vec (t : Ty)
  /-- `[T; n]`. -/
  | array (n : Nat) (t : Ty)
  /-- `(T0, T1, ..)`. -/
  | tuple (ts : List Ty)
  /-- `HashMap<K, V>`. -/
  | map (k v : Ty)
  /-- A field `[u8; n]` with `#[serde(with = "serde_xdr::opaque::fixed")]`. -/
  | opaqueFixed (n : Nat)
  /-- A field `Vec<u8>` with `#[serde(with = "serde_xdr::opaque::variable")]`. -/
  | opaqueVar
  /-- A field of the named enum type with `#[serde(with = "serde_xdr::primitive::signed32")]`. -/
  | signed32 (name : String) (impl : Signed32Impl)
  /-- A struct or enum defined in the environment (also `Box` of it). -/
  | named (name : String)

/-- The shapes of a variant of an enum with derived serde impls. -/
inductive Shape where
  | unit
  | newtype (t : Ty)
  | tuple (ts : List Ty)
  | struct (fs : List (String × Ty))

/-- User-supplied `XdrIndexer` impl, `serde-xdr/src/lib.rs` 11-16. `index` sees the variant number
and the fields. Both functions may panic. -/
structure IndexerImpl where
  index : Nat → List Val → Res Int32
  name_by_index : Int32 → Res String

/-- User-supplied `XdrUnion<T>` impl, `serde-xdr/src/lib.rs` 18-22. -/
structure UnionImpl where
  name_by_value : Val → Res String

/-- Struct and enum definitions. Rust; for the two derives see `serde-xdr-derive/src/lib.rs` 6 and 117. -/
inductive Def where
  | unitStruct
  | newtypeStruct (t : Ty)
  | tupleStruct (ts : List Ty)
  | struct (fs : List (String × Ty))
  | enum (vs : List (String × Shape))
  /-- `#[derive(XdrIndexer)] enum`; `none` is a unit variant, `some ts` an unnamed-field variant. -/
  | indexer (vs : List (String × Option (List Ty))) (impl : IndexerImpl)
  /-- `#[derive(XdrUnion)] enum`; `disc` is the discriminant type `T` (`value_ty` in the macro). -/
  | union (disc : Ty) (vs : List (String × Option (List Ty))) (impl : UnionImpl)

/-- The type definitions of a program. Plumbing: Rust's name lookup. -/
abbrev Env := String → Option Def

/-! ## Serialize impls -/

/-- `index as usize` for `i32` (sign-extends, then reinterprets), `serde-xdr-derive` 68. -/
def i32AsUsize (v : Int32) : Nat := v.toInt64.toUInt64.toNat

/-- `Err` / panic of a user function called by a `Serialize` impl. `serde-xdr-derive/src/lib.rs` 66-70. -/
def SVal.ofUser (r : Res Int32) (k : Int32 → SVal) : SVal :=
  match r with
  | .ok i => k i
  | .err _ => .panic .unwrapErr
  | .panic p => .panic p
  | .depth => .panic .unimplemented

/-- Zip field names with the calls for their values. Serde's derive. -/
def zipNames (fs : List (String × Ty)) (vs : List SVal) : List (String × SVal) :=
  (fs.map (·.1)).zip vs

/-- No key occurs twice. Std: a `HashMap` has no key twice. -/
def distinctKeys {α β : Type} (same : α → α → Bool) : List (α × β) → Bool
  | [] => true
  | (k, _) :: es => es.all (fun e => !same k e.1) && distinctKeys same es

mutual
/-- Structural equality of values (`Eq` of the key type of a map). Std and derived impls. -/
def Val.same : Val → Val → Bool
  | .bool a, .bool b => a == b
  | .i8 a, .i8 b => a == b
  | .i16 a, .i16 b => a == b
  | .i32 a, .i32 b => a == b
  | .i64 a, .i64 b => a == b
  | .u8 a, .u8 b => a == b
  | .u16 a, .u16 b => a == b
  | .u32 a, .u32 b => a == b
  | .u64 a, .u64 b => a == b
  | .f32 a, .f32 b => a == b
  | .f64 a, .f64 b => a == b
  | .char a, .char b => a == b
  | .str a, .str b => a == b
  | .bytes a, .bytes b => a == b
  | .none, .none => true
  | .some a, .some b => a.same b
  | .unit, .unit => true
  | .seq a, .seq b => sameList a b
  | .map a, .map b => sameEntries a b
  | .variant i a, .variant j b => i == j && sameList a b
  | _, _ => false

/-- Structural equality of lists of values (std). -/
def sameList : List Val → List Val → Bool
  | [], [] => true
  | a :: as, b :: bs => a.same b && sameList as bs
  | _, _ => false

/-- Structural equality of maps, entry by entry (std). -/
def sameEntries : List (Val × Val) → List (Val × Val) → Bool
  | [], [] => true
  | (k, v) :: as, (l, w) :: bs => k.same l && v.same w && sameEntries as bs
  | _, _ => false
end

mutual
/-- The `Serialize` impl of type `t` on value `v`: the calls it makes, or `none` if `v` is not a
value of type `t`.

Sources: serde's impls for std types; `#[derive(Serialize)]` for structs and enums (a variant's
index is its position, explicit discriminants are ignored); `opaque.rs`, `primitive.rs`;
`serde-xdr-derive/src/lib.rs` 60-78 (`XdrIndexer`) and 186-201 (`XdrUnion`). -/
def present (env : Env) : Ty → Val → Option SVal
  | .bool, .bool v => some (.bool v)
  | .i8, .i8 v => some (.i8 v)
  | .i16, .i16 v => some (.i16 v)
  | .i32, .i32 v => some (.i32 v)
  | .i64, .i64 v => some (.i64 v)
  | .u8, .u8 v => some (.u8 v)
  | .u16, .u16 v => some (.u16 v)
  | .u32, .u32 v => some (.u32 v)
  | .u64, .u64 v => some (.u64 v)
  | .f32, .f32 v => some (.f32 v)
  | .f64, .f64 v => some (.f64 v)
  | .char, .char v => some (.char v)
  | .string, .str v => some (.str v)
  | .bytes, .bytes v => some (.bytes v)
  | .option _, .none => some .none
  | .option t, .some v => (present env t v).map .some
  | .unit, .unit => some .unit
  | .vec t, .seq vs => (presentAll env t vs).map (.seq (some vs.length))
  | .array n t, .seq vs =>
    if vs.length = n then (presentAll env t vs).map (.tuple n) else none
  | .tuple ts, .seq vs => (presentEach env ts vs).map (.tuple ts.length)
  | .map k t, .map es =>
    if distinctKeys Val.same es then
      (presentEntries env k t es).map (.map (some es.length))
    else none
  | .opaqueFixed n, .bytes v => if v.length = n then some (fixed_serialize v) else none
  | .opaqueVar, .bytes v => some (variable_serialize v)
  | .signed32 name impl, .variant i vs =>
    -- the field holds a value of the named enum
    match env name with
    | some (.enum vars) =>
      match vars[i]?, vs with
      | some (_, .unit), [] => some (signed32_serialize (impl.as_ref (.variant i [])))
      | _, _ => none
    | _ => none
  | .named name, v =>
    match env name with
    | none => none
    | some d =>
      match d, v with
      | .unitStruct, .unit => some (.unitStruct name)
      | .newtypeStruct t, .seq [v] => (present env t v).map (.newtypeStruct name)
      | .tupleStruct ts, .seq vs => (presentEach env ts vs).map (.tupleStruct name ts.length)
      | .struct fs, .seq vs =>
        (presentEach env (fs.map (·.2)) vs).map (fun ss => .struct name fs.length (zipNames fs ss))
      | .enum vars, .variant i vs =>
        match vars[i]? with
        | none => none
        | some (vn, sh) =>
          match sh, vs with
          | .unit, [] => some (.unitVariant name (UInt32.ofNat i) vn)
          | .newtype t, [v] => (present env t v).map (.newtypeVariant name (UInt32.ofNat i) vn)
          | .tuple ts, vs =>
            (presentEach env ts vs).map (.tupleVariant name (UInt32.ofNat i) vn ts.length)
          | .struct fs, vs =>
            (presentEach env (fs.map (·.2)) vs).map
              (fun ss => .structVariant name (UInt32.ofNat i) vn fs.length (zipNames fs ss))
          | _, _ => none
      | .indexer vars impl, .variant i vs =>
        match vars[i]? with
        | none => none
        | some (_, none) =>
          if vs.isEmpty then
            some (.ofUser (impl.index i vs) fun idx => .tuple (i32AsUsize idx) [.i32 idx])
          else none
        | some (_, some ts) =>
          (presentEach env ts vs).map fun ss =>
            .ofUser (impl.index i vs) fun idx => .tuple (i32AsUsize idx) (.i32 idx :: ss)
      | .union _ vars _, .variant i vs =>
        match vars[i]? with
        | none => none
        | some (_, none) => if vs.isEmpty then some (.tuple 2 []) else none
        | some (_, some ts) => (presentEach env ts vs).map (.tuple 2)
      | _, _ => none
  | _, _ => none

/-- `present` for every element of a `Vec` or array. Serde's impls. -/
def presentAll (env : Env) (t : Ty) : List Val → Option (List SVal)
  | [] => some []
  | v :: vs =>
    match present env t v, presentAll env t vs with
    | some s, some ss => some (s :: ss)
    | _, _ => none

/-- `present` for the fields of a product. Serde's impls. -/
def presentEach (env : Env) : List Ty → List Val → Option (List SVal)
  | [], [] => some []
  | t :: ts, v :: vs =>
    match present env t v, presentEach env ts vs with
    | some s, some ss => some (s :: ss)
    | _, _ => none
  | _, _ => none

/-- `present` for the entries of a map. Serde's impls. -/
def presentEntries (env : Env) (k t : Ty) : List (Val × Val) → Option (List (SVal × SVal))
  | [] => some []
  | (a, b) :: es =>
    match present env k a, present env t b, presentEntries env k t es with
    | some s, some s', some ss => some ((s, s') :: ss)
    | _, _, _ => none
end

/-- `v` is a value of type `t`. Rust's typing. -/
def HasTy (env : Env) (t : Ty) (v : Val) : Prop := (present env t v).isSome

/-- `serde_xdr::to_bytes(&v)` at type `t`. -/
def toBytes (env : Env) (t : Ty) (v : Val) : Res Bytes :=
  match present env t v with
  | some s => to_bytes s
  | none => .panic .illTyped

/-! ## Deserialize impls -/

/-- serde's `Error::invalid_length(i, &exp)`. -/
def invalidLength (i : Nat) (exp : String) : Error :=
  .custom s!"invalid length {i}, expected {exp}"

/-- `visit_seq` of tuples, arrays, tuple structs and structs: one `next_element` per member, missing
members are `invalid_length` errors. Serde's impls. -/
def visitEach (exp : String) : List (De Val) → Nat → Seq → De (List Val)
  | [], _, _ => pure []
  | d :: ds, i, seq => do
    let (o, seq') ← seq.next_element d
    match o with
    | none => M.fail (invalidLength i exp)
    | some v => do
      let vs ← visitEach exp ds (i + 1) seq'
      pure (v :: vs)

/-- `VecVisitor::visit_seq` of serde: `while let Some(value) = seq.next_element()? { push }`.
The first argument bounds the number of iterations; callers pass `count + 1`, which the loop cannot
exhaust. -/
def visitVec (d : De Val) : Nat → Seq → De (List Val)
  | 0, _ => M.depth
  | n + 1, seq => do
    let (o, seq') ← seq.next_element d
    match o with
    | none => pure []
    | some v => do
      let vs ← visitVec d n seq'
      pure (v :: vs)

/-- `HashMap::insert`: an existing key keeps its place, its value is replaced. Std. -/
def mapInsert (k v : Val) : List (Val × Val) → List (Val × Val)
  | [] => [(k, v)]
  | (k', v') :: es => if k'.same k then (k', v) :: es else (k', v') :: mapInsert k v es

/-- `MapVisitor::visit_map` of serde: `while let Some((k, v)) = map.next_entry()? { insert }`.
Same convention for the bound as `visitVec`. -/
def visitMap (dk dv : De Val) : Nat → MapAcc → List (Val × Val) → De (List (Val × Val))
  | 0, _, _ => M.depth
  | n + 1, acc, es => do
    let (o, acc') ← acc.next_key dk
    match o with
    | none => pure es
    | some k => do
      let v ← acc'.next_value dv
      visitMap dk dv n acc' (mapInsert k v es)

/-- `next_element::<T>()?.unwrap()` for each field, `serde-xdr-derive` 33-35 and 151-153. -/
def visitUnwrap : List (De Val) → Seq → De (List Val)
  | [], _ => pure []
  | d :: ds, seq => do
    let (o, seq') ← seq.next_element d
    match o with
    | none => M.panic .unwrapNone
    | some v => do
      let vs ← visitUnwrap ds seq'
      pure (v :: vs)

/-- `match variant { stringify!(V0) => .., stringify!(V1) => .., _ => .. }`: the first variant with
that name, and its position. `serde-xdr-derive/src/lib.rs` 101-104 and 224-227. -/
def findVariant {α : Type} (name : String) : List (String × α) → Nat → Option (Nat × α)
  | [], _ => none
  | (n, a) :: vs, i => if n = name then some (i, a) else findVariant name vs (i + 1)

/-- `XdrIndexerVisitor::visit_seq`, `serde-xdr-derive` 94-105. `field` is the `Deserialize` impl of
field types. -/
def visitIndexer (field : Ty → De Val) (vars : List (String × Option (List Ty)))
    (impl : IndexerImpl) (seq : Seq) : De Val := do
  let (o, seq) ← seq.next_element (deserialize_i32 pure)
  match o with
  | none => M.panic .unwrapNone
  | some index =>
    match impl.name_by_index index with
    | .err _ => M.fail (.custom s!"Can not convert from {index.toInt}")
    | .panic p => M.panic p
    | .depth => M.depth
    | .ok name =>
      match findVariant name vars 0 with
      | none => M.panic .unimplemented
      | some (i, none) => pure (.variant i [])
      | some (i, some ts) => do
        let vs ← visitUnwrap (ts.map field) seq
        pure (.variant i vs)

/-- `XdrUnionVisitor::visit_seq`, `serde-xdr-derive` 217-228. The first field of the variant is the
discriminant already read (`de_rets.push(value)` at 149); an unnamed variant without fields gets no
discriminant. The `{:?}` text of the value in the error message is dropped. -/
def visitUnion (field : Ty → De Val) (disc : Ty) (vars : List (String × Option (List Ty)))
    (impl : UnionImpl) (seq : Seq) : De Val := do
  let (o, seq) ← seq.next_element (field disc)
  match o with
  | none => M.panic .unwrapNone
  | some value =>
    match impl.name_by_value value with
    | .err _ => M.fail (.custom "Can not convert from value")
    | .panic p => M.panic p
    | .depth => M.depth
    | .ok name =>
      match findVariant name vars 0 with
      | none => M.panic .unimplemented
      | some (i, none) => pure (.variant i [])
      | some (i, some []) => pure (.variant i [])
      | some (i, some (_ :: ts)) => do
        let vs ← visitUnwrap (ts.map field) seq
        pure (.variant i (value :: vs))

/-- Field-identifier visitor generated by `#[derive(Deserialize)]` for an enum: `visit_u64`. -/
def variantIndex (count i : Nat) : De Nat :=
  if i < count then pure i
  else M.fail (.custom
    s!"invalid value: integer `{i}`, expected variant index 0 <= i < {count}")

/-- `#[derive(Deserialize)]` for a struct or enum, or the two derive macros of serde-xdr-derive.
`field` is the `Deserialize` impl of the field types. -/
def deDef (field : Ty → De Val) (name : String) : Def → De Val
  | .unitStruct => deserialize_unit_struct name (pure .unit)
  | .newtypeStruct t => deserialize_newtype_struct name (do
      let v ← field t
      pure (.seq [v]))
  | .tupleStruct ts => do
      let vs ← deserialize_tuple_struct name ts.length
        (visitEach s!"tuple struct {name} with {ts.length} elements" (ts.map field) 0)
      pure (.seq vs)
  | .struct fs => do
      let vs ← deserialize_struct name (fs.map (·.1))
        (visitEach s!"struct {name} with {fs.length} elements" (fs.map fun f => field f.2) 0)
      pure (.seq vs)
  | .enum vars => deserialize_enum name (vars.map (·.1)) (do
      let i ← Enum_variant_seed (variantIndex vars.length)
      match vars[i]? with
      | none => M.panic .illTyped
      | some (vn, .unit) => do
        Enum_unit_variant
        let _ := vn
        pure (.variant i [])
      | some (_, .newtype t) => do
        let v ← Enum_newtype_variant (field t)
        pure (.variant i [v])
      | some (vn, .tuple ts) => do
        let vs ← Enum_tuple_variant ts.length
          (visitEach s!"tuple variant {name}::{vn} with {ts.length} elements" (ts.map field) 0)
        pure (.variant i vs)
      | some (vn, .struct fs) => do
        let vs ← Enum_struct_variant (fs.map (·.1))
          (visitEach s!"struct variant {name}::{vn} with {fs.length} elements"
            (fs.map fun f => field f.2) 0)
        pure (.variant i vs))
  -- `deserializer.deserialize_tuple(10, ..)`, serde-xdr-derive 108
  | .indexer vars impl => deserialize_tuple 10 (visitIndexer field vars impl)
  -- serde-xdr-derive 231
  | .union disc vars impl => deserialize_tuple 10 (visitUnion field disc vars impl)

/-- The `Deserialize` impl of a type. The first argument is the recursion bound (stack): every nested
type takes one unit. Sources: serde's impls for std types, derive output, `opaque.rs`,
`primitive.rs`. -/
def deTy (env : Env) : Nat → Ty → De Val
  | 0, _ => M.depth
  | n + 1, t =>
    match t with
    | .bool => deserialize_bool fun v => pure (.bool v)
    | .i8 => deserialize_i8 fun v => pure (.i8 v)
    | .i16 => deserialize_i16 fun v => pure (.i16 v)
    | .i32 => deserialize_i32 fun v => pure (.i32 v)
    | .i64 => deserialize_i64 fun v => pure (.i64 v)
    | .u8 => deserialize_u8 fun v => pure (.u8 v)
    | .u16 => deserialize_u16 fun v => pure (.u16 v)
    | .u32 => deserialize_u32 fun v => pure (.u32 v)
    | .u64 => deserialize_u64 fun v => pure (.u64 v)
    | .f32 => deserialize_f32 fun v => pure (.f32 v)
    | .f64 => deserialize_f64 fun v => pure (.f64 v)
    | .char => deserialize_char fun v => pure (.char v)
    | .string => deserialize_string fun v => pure (.str v)
    | .bytes => deserialize_byte_buf fun v => pure (.bytes v)
    | .option t => deserialize_option (pure .none) (do
        let v ← deTy env n t
        pure (.some v))
    | .unit => deserialize_unit (pure .unit)
    | .vec t => do
        let vs ← deserialize_seq fun seq => visitVec (deTy env n t) (seq.count + 1) seq
        pure (.seq vs)
    | .array len t => do
        let vs ← deserialize_tuple len
          (visitEach s!"an array of length {len}" (List.replicate len (deTy env n t)) 0)
        pure (.seq vs)
    | .tuple ts => do
        let vs ← deserialize_tuple ts.length
          (visitEach s!"a tuple of size {ts.length}" (ts.map (deTy env n)) 0)
        pure (.seq vs)
    | .map k v => do
        let es ← deserialize_map fun acc =>
          visitMap (deTy env n k) (deTy env n v) (acc.count + 1) acc []
        pure (.map es)
    | .opaqueFixed len => do
        let v ← fixed_deserialize len
        pure (.bytes v)
    | .opaqueVar => do
        let v ← variable_deserialize
        pure (.bytes v)
    | .signed32 _ impl => signed32_deserialize impl.try_from
    | .named name =>
      match env name with
      | none => M.panic .illTyped
      | some d => deDef (deTy env n) name d

/-- `serde_xdr::from_bytes::<T>(b)` with recursion bound `n`. -/
def fromBytes (env : Env) (n : Nat) (t : Ty) (b : Bytes) : Res Val := from_bytes (deTy env n t) b

end Xdr
