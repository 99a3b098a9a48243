import Verif.Model.Keep
/-!
# "Every `Deserialize` implementation", including those that catch errors

`Handled text d`: the decoder `d` is what some `Deserialize` impl does when driven by this deserializer,
where the impl and its visitors may match on the `Result` of any nested call and go on as they like
(`attempt`, `next_element`, `next_key`). It reads text only if `text`.

The methods that only pass the deserializer on (`deserialize_unit`, `deserialize_newtype_struct`,
`deserialize_tuple`, `deserialize_tuple_struct`, `deserialize_struct`, `deserialize_enum`, `next_value`,
`newtype_variant` and the other variant accesses) have no clause: they are what they are given, with the
count of elements where there is one.
-/

namespace Xdr

inductive Handled (text : Bool) : {α : Type} → K α → Prop
  | pure {α : Type} (a : α) : Handled text (pure a : K α)
  | custom {α : Type} (msg : String) : Handled text (K.fail (.custom msg) : K α)
  | panic {α : Type} (p : PanicSite) : Handled text (K.panic p : K α)
  /-- Not an impl's doing: the recursion bound of the model. -/
  | depth {α : Type} : Handled text (K.depth : K α)
  | bind {α β : Type} {m : K α} {f : α → K β} :
      Handled text m → (∀ a, Handled text (f a)) → Handled text (m >>= f)
  | attempt {α : Type} {m : K α} : Handled text m → Handled text (K.attempt m)
  /-- An error handed on later. -/
  | rethrow {α : Type} (r : Except Error α) : Handled text (K.ofExcept r)
  /-- `deserialize_any`, `deserialize_ignored_any`. -/
  | any {α : Type} : Handled text (K.fail .notImplemented : K α)
  /-- `deserialize_bool`, `_u8`, `_u16`, `_u32`, `_f32`, `_option`, `_seq`, `_map`. -/
  | u32 : Handled text read_u32K
  /-- `deserialize_i8`, `_i16`, `_i32`. -/
  | i32 : Handled text read_i32K
  /-- `deserialize_u64`, `_f64`. -/
  | u64 : Handled text read_u64K
  | i64 : Handled text read_i64K
  | char : Handled text read_charK
  /-- `deserialize_bytes`, `_byte_buf`. -/
  | bytes : Handled text read_bytesK
  /-- `deserialize_str`, `_string`, `_identifier`. -/
  | string : text = true → Handled text read_stringK
  | next_element {α : Type} {s : Seq} {d : K α} : Handled text d → Handled text (s.nextK d)
  | next_key {α : Type} {s : MapAcc} {d : K α} : Handled text d → Handled text (s.nextKeyK d)
  | variant_seed {α : Type} {f : Nat → K α} : (∀ a, Handled text (f a)) → Handled text (variant_seedK f)

/-- What is seen of a computation by one who does not catch. -/
def K.forget {α : Type} (d : K α) : De α := fun s =>
  match d s with
  | (.ok a, s') => .ok (a, s')
  | (.err e, _) => .err e
  | (.panic p, _) => .panic p
  | (.depth, _) => .depth

end Xdr
