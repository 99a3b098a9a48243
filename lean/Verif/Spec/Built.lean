import Verif.Model.Types
/-!
# "Every `Deserialize` implementation"

`Built d`: the decoder `d` is what some `Deserialize` impl does when driven by this deserializer. It
is the smallest class that contains the methods of `Deserializer`, `SeqAccess`, `MapAccess`,
`EnumAccess` and `VariantAccess`, applied to visitors and seeds of the class, and is closed under
doing one thing after another (`?`), returning, raising `de::Error::custom`, and panicking.

Implementations that catch the error of a nested call and go on are in `Catching.lean`.
-/

namespace Xdr

inductive Built : {α : Type} → De α → Prop
  | pure {α : Type} (a : α) : Built (pure a : De α)
  | custom {α : Type} (msg : String) : Built (M.fail (.custom msg) : De α)
  | panic {α : Type} (p : PanicSite) : Built (M.panic p : De α)
  /-- Not an impl's doing: the recursion bound of the model. -/
  | depth {α : Type} : Built (M.depth : De α)
  | bind {α β : Type} {m : De α} {f : α → De β} :
      Built m → (∀ a, Built (f a)) → Built (m >>= f)
  | any {α : Type} : Built (deserialize_any : De α)
  | ignored_any {α : Type} : Built (deserialize_ignored_any : De α)
  | bool {α : Type} {f : Bool → De α} : (∀ a, Built (f a)) → Built (deserialize_bool f)
  | i8 {α : Type} {f : Int8 → De α} : (∀ a, Built (f a)) → Built (deserialize_i8 f)
  | i16 {α : Type} {f : Int16 → De α} : (∀ a, Built (f a)) → Built (deserialize_i16 f)
  | i32 {α : Type} {f : Int32 → De α} : (∀ a, Built (f a)) → Built (deserialize_i32 f)
  | i64 {α : Type} {f : Int64 → De α} : (∀ a, Built (f a)) → Built (deserialize_i64 f)
  | i128 {α : Type} : Built (deserialize_i128 : De α)
  | u8 {α : Type} {f : UInt8 → De α} : (∀ a, Built (f a)) → Built (deserialize_u8 f)
  | u16 {α : Type} {f : UInt16 → De α} : (∀ a, Built (f a)) → Built (deserialize_u16 f)
  | u32 {α : Type} {f : UInt32 → De α} : (∀ a, Built (f a)) → Built (deserialize_u32 f)
  | u64 {α : Type} {f : UInt64 → De α} : (∀ a, Built (f a)) → Built (deserialize_u64 f)
  | u128 {α : Type} : Built (deserialize_u128 : De α)
  | f32 {α : Type} {f : UInt32 → De α} : (∀ a, Built (f a)) → Built (deserialize_f32 f)
  | f64 {α : Type} {f : UInt64 → De α} : (∀ a, Built (f a)) → Built (deserialize_f64 f)
  | char {α : Type} {f : Char → De α} : (∀ a, Built (f a)) → Built (deserialize_char f)
  | str {α : Type} {f : List Char → De α} : (∀ a, Built (f a)) → Built (deserialize_str f)
  | string {α : Type} {f : List Char → De α} : (∀ a, Built (f a)) → Built (deserialize_string f)
  | identifier {α : Type} {f : List Char → De α} :
      (∀ a, Built (f a)) → Built (deserialize_identifier f)
  | bytes {α : Type} {f : Bytes → De α} : (∀ a, Built (f a)) → Built (deserialize_bytes f)
  | byte_buf {α : Type} {f : Bytes → De α} : (∀ a, Built (f a)) → Built (deserialize_byte_buf f)
  | option {α : Type} {d e : De α} : Built d → Built e → Built (deserialize_option d e)
  | unit {α : Type} {d : De α} : Built d → Built (deserialize_unit d)
  | unit_struct {α : Type} {n : String} {d : De α} :
      Built d → Built (deserialize_unit_struct n d)
  | newtype_struct {α : Type} {n : String} {d : De α} :
      Built d → Built (deserialize_newtype_struct n d)
  | seq {α : Type} {f : Seq → De α} : (∀ a, Built (f a)) → Built (deserialize_seq f)
  | tuple {α : Type} {n : Nat} {f : Seq → De α} :
      (∀ a, Built (f a)) → Built (deserialize_tuple n f)
  | tuple_struct {α : Type} {s : String} {n : Nat} {f : Seq → De α} :
      (∀ a, Built (f a)) → Built (deserialize_tuple_struct s n f)
  | map {α : Type} {f : MapAcc → De α} : (∀ a, Built (f a)) → Built (deserialize_map f)
  | struct {α : Type} {s : String} {l : List String} {f : Seq → De α} :
      (∀ a, Built (f a)) → Built (deserialize_struct s l f)
  | enum {α : Type} {s : String} {l : List String} {d : De α} :
      Built d → Built (deserialize_enum s l d)
  | next_element {α : Type} {s : Seq} {d : De α} : Built d → Built (s.next_element d)
  | next_key {α : Type} {s : MapAcc} {d : De α} : Built d → Built (s.next_key d)
  | next_value {α : Type} {s : MapAcc} {d : De α} : Built d → Built (s.next_value d)
  | variant_seed {α : Type} {f : Nat → De α} : (∀ a, Built (f a)) → Built (Enum_variant_seed f)
  | unit_variant : Built Enum_unit_variant
  | newtype_variant {α : Type} {d : De α} : Built d → Built (Enum_newtype_variant d)
  | tuple_variant {α : Type} {n : Nat} {f : Seq → De α} :
      (∀ a, Built (f a)) → Built (Enum_tuple_variant n f)
  | struct_variant {α : Type} {l : List String} {f : Seq → De α} :
      (∀ a, Built (f a)) → Built (Enum_struct_variant l f)

end Xdr
