import Verif.RpcgenProofs.EndToEnd
/-!
# Files without default arms

All their values are values without default arms.
-/

namespace Xdr.Rpcgen

open Rfc (XVal)

set_option linter.unusedSectionVars false

section
variable {ds : List Definition} (hno : ∀ u b, .type (.union u b) ∈ ds → b.default = none) {dflt : Bool} (dflt' : Bool)
include hno

mutual
theorem Typed.plain : ∀ {ts x}, Typed ds dflt ts x → Typed ds dflt' ts x
  | _, _, .int h1 h2 => .int h1 h2
  | _, _, .uint h => .uint h
  | _, _, .hyper h1 h2 => .hyper h1 h2
  | _, _, .uhyper h => .uhyper h
  | _, _, .float h => .float h
  | _, _, .double h => .double h
  | _, _, .bool => .bool
  | _, _, .char h1 h2 => .char h1 h2
  | _, _, .uchar h => .uchar h
  | _, _, .short h1 h2 => .short h1 h2
  | _, _, .ushort h => .ushort h
  | _, _, .name h1 h2 => .name h1 (Defined.plain h2 (typeOf_mem h1).1)

theorem Defined.plain : ∀ {t x}, Defined ds dflt t x → .type t ∈ ds → Defined ds dflt' t x
  | _, _, .typedef h, _ => .typedef (Declared.plain h)
  | _, _, .enum ha hk, _ => .enum ha hk
  | _, _, .struct h, _ => .struct (Members.plain h)
  | _, _, .arm h1 h2 h3 h4 h5 h6, _ => .arm h1 h2 h3 (Typed.plain h4) h5 (Declared.plain h6)
  | _, _, .default _ _ h3 _ _ _ _, hm => by
    rw [hno _ _ hm] at h3
    cases h3

theorem Declared.plain : ∀ {d x}, Declared ds dflt d x → Declared ds dflt' d x
  | _, _, .variable h => .variable (Typed.plain h)
  | _, _, .fixedArray h1 h => .fixedArray h1 (Each.plain h)
  | _, _, .variableArray h1 h2 h => .variableArray h1 h2 (Each.plain h)
  | _, _, .opaqueFixed h => .opaqueFixed h
  | _, _, .opaqueVar h1 h2 => .opaqueVar h1 h2
  | _, _, .string h1 h2 => .string h1 h2
  | _, _, .absent => .absent
  | _, _, .present h => .present (Typed.plain h)
  | _, _, .void => .void

theorem Each.plain : ∀ {ts xs}, Each ds dflt ts xs → Each ds dflt' ts xs
  | _, _, .nil => .nil
  | _, _, .cons h h' => .cons (Typed.plain h) (Each.plain h')

theorem Members.plain : ∀ {ds' xs}, Members ds dflt ds' xs → Members ds dflt' ds' xs
  | _, _, .nil => .nil
  | _, _, .cons h h' => .cons (Declared.plain h) (Members.plain h')
end
end

end Xdr.Rpcgen
