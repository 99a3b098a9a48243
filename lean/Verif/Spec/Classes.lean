import Verif.Model.Types
/-!
# Classes of types used in property statements
-/

namespace Xdr

/-! ## Programs whose own code does not panic -/

mutual
/-- `t` only mentions defined names, user conversions in it return, and strings and serde byte
buffers occur in it only if `text`. -/
def Ty.Ok (env : Env) (text : Bool) : Ty → Prop
  | .string => text = true
  | .bytes => text = true
  | .option t => t.Ok env text
  | .vec t => t.Ok env text
  | .array _ t => t.Ok env text
  | .tuple ts => TysOk env text ts
  | .map k v => k.Ok env text ∧ v.Ok env text
  | .signed32 _ impl => ∀ i, (∃ v, impl.try_from i = .ok v) ∨ ∃ e, impl.try_from i = .err e
  | .named name => (env name).isSome
  | _ => True

def TysOk (env : Env) (text : Bool) : List Ty → Prop
  | [] => True
  | t :: ts => t.Ok env text ∧ TysOk env text ts
end

/-- The field types of a variant. -/
def Shape.types : Shape → List Ty
  | .unit => []
  | .newtype t => [t]
  | .tuple ts => ts
  | .struct fs => fs.map (·.2)

/-- The field types of a definition. -/
def Def.types : Def → List Ty
  | .unitStruct => []
  | .newtypeStruct t => [t]
  | .tupleStruct ts => ts
  | .struct fs => fs.map (·.2)
  | .enum vars => vars.flatMap fun v => v.2.types
  | .indexer vars _ => vars.flatMap fun v => v.2.getD []
  | .union disc vars _ => disc :: vars.flatMap fun v => v.2.getD []

/-- A user function naming a variant returns the name of a variant, or an error. -/
def NameOk {α : Type} (vars : List (String × α)) (r : Res String) : Prop :=
  (∃ n, r = .ok n ∧ n ∈ vars.map (·.1)) ∨ ∃ e, r = .err e

/-- Field types are fine, and the user's part of a derived enum is: `name_by_index` / `name_by_value`
return, naming variants (for `name_by_value`: given what `from_bytes` can return for the discriminant), and
variants have at most nine fields after the index or discriminant. -/
def Def.Ok (env : Env) (text : Bool) (d : Def) : Prop :=
  TysOk env text d.types ∧
  match d with
  | .indexer vars impl =>
    (∀ i, NameOk vars (impl.name_by_index i)) ∧ ∀ v ∈ vars, (v.2.getD []).length ≤ 9
  | .union disc vars impl =>
    (∀ n b v, fromBytes env n disc b = .ok v → NameOk vars (impl.name_by_value v)) ∧ ∀ v ∈ vars, (v.2.getD []).length ≤ 10
  | _ => True

/-- Every definition of the program is fine. -/
def EnvOk (env : Env) (text : Bool) : Prop := ∀ name d, env name = some d → d.Ok env text

/-! ## Types whose values occupy at least four bytes -/

mutual
inductive Sized (env : Env) : Ty → Prop
  | bool : Sized env .bool
  | i8 : Sized env .i8
  | i16 : Sized env .i16
  | i32 : Sized env .i32
  | i64 : Sized env .i64
  | u8 : Sized env .u8
  | u16 : Sized env .u16
  | u32 : Sized env .u32
  | u64 : Sized env .u64
  | f32 : Sized env .f32
  | f64 : Sized env .f64
  | char : Sized env .char
  | string : Sized env .string
  | bytes : Sized env .bytes
  | option (t : Ty) : Sized env (.option t)
  | vec (t : Ty) : Sized env (.vec t)
  | map (k v : Ty) : Sized env (.map k v)
  | array {n : Nat} {t : Ty} : Sized env t → Sized env (.array (n + 1) t)
  | tuple {ts : List Ty} : SizedSome env ts → Sized env (.tuple ts)
  | opaqueFixed {n : Nat} : Sized env (.opaqueFixed (n + 1))
  | opaqueVar : Sized env .opaqueVar
  | signed32 (name : String) (impl : Signed32Impl) : Sized env (.signed32 name impl)
  | newtypeStruct {name : String} {t : Ty} : env name = some (.newtypeStruct t) → Sized env t →
      Sized env (.named name)
  | tupleStruct {name : String} {ts : List Ty} : env name = some (.tupleStruct ts) →
      SizedSome env ts → Sized env (.named name)
  | struct {name : String} {fs : List (String × Ty)} : env name = some (.struct fs) →
      SizedSome env (fs.map (·.2)) → Sized env (.named name)
  | enum {name : String} {vars : List (String × Shape)} : env name = some (.enum vars) →
      Sized env (.named name)
  | indexer {name : String} {vars : List (String × Option (List Ty))} {impl : IndexerImpl} :
      env name = some (.indexer vars impl) → Sized env (.named name)
  | union {name : String} {disc : Ty} {vars : List (String × Option (List Ty))} {impl : UnionImpl} :
      env name = some (.union disc vars impl) → Sized env disc → Sized env (.named name)

/-- Some type of the list is. -/
inductive SizedSome (env : Env) : List Ty → Prop
  | head {t : Ty} {ts : List Ty} : Sized env t → SizedSome env (t :: ts)
  | tail {t : Ty} {ts : List Ty} : SizedSome env ts → SizedSome env (t :: ts)
end

/-! ## Recursive types -/

mutual
/-- The type names a value of type `t` contains whatever its bytes are: not those inside `Option`,
`Vec` and maps, which may be empty. -/
def Ty.bare : Ty → List String
  | .array _ t => t.bare
  | .tuple ts => baresOf ts
  | .named name => [name]
  | _ => []

def baresOf : List Ty → List String
  | [] => []
  | t :: ts => t.bare ++ baresOf ts
end

/-- The same for a definition: the fields of structs and the discriminant of unions count, the fields
of enum variants do not. -/
def Def.bare : Def → List String
  | .unitStruct => []
  | .newtypeStruct t => t.bare
  | .tupleStruct ts => baresOf ts
  | .struct fs => baresOf (fs.map (·.2))
  | .enum _ => []
  | .indexer _ _ => []
  | .union disc _ _ => disc.bare

/-- The program consisting of a list of definitions. -/
def program (defs : List (String × Def)) : Env := fun name =>
  (defs.find? fun d => d.1 == name).map (·.2)

mutual
/-- User conversions in the type return. -/
def Ty.Returns : Ty → Prop
  | .option t => t.Returns
  | .vec t => t.Returns
  | .array _ t => t.Returns
  | .tuple ts => ReturnsAll ts
  | .map k v => k.Returns ∧ v.Returns
  | .signed32 _ impl => ∀ i, impl.try_from i ≠ .depth
  | _ => True

def ReturnsAll : List Ty → Prop
  | [] => True
  | t :: ts => t.Returns ∧ ReturnsAll ts
end

/-- User functions of a definition return. -/
def Def.Returns (d : Def) : Prop :=
  ReturnsAll d.types ∧
  match d with
  | .indexer _ impl => ∀ i, impl.name_by_index i ≠ .depth
  | .union _ _ impl => ∀ v, impl.name_by_value v ≠ .depth
  | _ => True

/-! ## Consistent user conversions -/

mutual
/-- User conversions in the type are consistent, and maps occur only if `maps`: a value `TryFrom`
returns is a unit variant of the enum, whose `AsRef` `TryFrom` maps to it again. -/
def Ty.Consistent (env : Env) (maps : Bool) : Ty → Prop
  | .option t => t.Consistent env maps
  | .vec t => t.Consistent env maps
  | .array _ t => t.Consistent env maps
  | .tuple ts => ConsistentAll env maps ts
  | .map k v => maps = true ∧ k.Consistent env maps ∧ v.Consistent env maps
  | .signed32 name impl => ∀ i v, impl.try_from i = .ok v →
      impl.try_from (impl.as_ref v) = .ok v ∧
      ∃ vars j vn, env name = some (.enum vars) ∧ vars[j]? = some (vn, .unit) ∧ v = .variant j []
  | _ => True

def ConsistentAll (env : Env) (maps : Bool) : List Ty → Prop
  | [] => True
  | t :: ts => t.Consistent env maps ∧ ConsistentAll env maps ts
end

/-- The fields are consistent, and so are the user's functions: the variant `name_by_index` names has
an `index()` that names it again; the variant `name_by_value` names starts with a field of the
discriminant type. -/
def Def.Consistent (env : Env) (maps : Bool) (d : Def) : Prop :=
  ConsistentAll env maps d.types ∧
  match d with
  | .indexer vars impl => ∀ idx vn, impl.name_by_index idx = .ok vn →
      ∀ i fields, vars[i]? = some (vn, fields) → ∀ vs, ∃ idx', impl.index i vs = .ok idx' ∧
        impl.name_by_index idx' = .ok vn
  | .union disc vars impl => ∀ v vn, impl.name_by_value v = .ok vn →
      ∀ (i : Nat) fields, vars[i]? = some (vn, fields) → ∃ ts, fields = some (disc :: ts)
  | _ => True

/-- Every definition of the program is consistent. -/
def EnvConsistent (env : Env) (maps : Bool) : Prop :=
  ∀ name d, env name = some d → d.Consistent env maps

end Xdr
