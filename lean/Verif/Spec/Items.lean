import Verif.Spec.Schema
import Verif.Spec.RustTypes
import Verif.Rpcgen.Rust
import Verif.Rpcgen.Gen
/-!
# Which Rust items an interface becomes
-/

namespace Xdr.Rpcgen

/-- The type definitions of an interface, in its order. (`typedef void;` names nothing.) -/
def namedTypes (ds : List Definition) : List TypeDef :=
  ds.filterMap fun
    | .type t => if t.name.isSome then some t else none
    | _ => none

/-- The variants of an enum: one for each member, under its name in camel case, and reserved ones. -/
def MemberVariants (as : List Assign) (vs : List (RIdent × Int)) : Prop :=
  ∃ ms res, vs.Perm (ms ++ res) ∧
    List.Forall₂ (fun (a : Assign) v => upper_camel_case_ident a.identifier = .ok v.1) as ms ∧
    ∀ r ∈ res, ∃ s, r.1 = ⟨false, c!"_Reserved" ++ s⟩

/-- The Rust items of a type definition: one of the same kind under the name in camel case. A typedef is
none if typedefs are removed, and otherwise an alias of a type without attribute. -/
inductive ItemsOf (ds : List Definition) (drop : Bool) : TypeDef → List Item → Prop
  | enum {name : Str} {as : List Assign} {e : EnumItem} : upper_camel_case_ident name = .ok e.name →
      MemberVariants as e.variants → ItemsOf ds drop (.enum name as) [.enum e]
  | struct {name : Str} {ms : List Declaration} {s : StructItem} : upper_camel_case_ident name = .ok s.name →
      s.fields.length = ms.length → ItemsOf ds drop (.struct name ms) [.struct s]
  | union {name : Str} {b : UnionBody} {u : UnionItem} : upper_camel_case_ident name = .ok u.name →
      ItemsOf ds drop (.union name b) [.union u]
  | removed {d : Declaration} : drop = true → ItemsOf ds drop (.declaration d) []
  | «alias» {d : Declaration} {name : Str} {id : RIdent} {ty : RTy} : drop = false → d.name = some name →
      upper_camel_case_ident name = .ok id → DeclType ds drop d ty .none →
      ItemsOf ds drop (.declaration d) [.alias id ty]

end Xdr.Rpcgen
