import Mathlib.Data.List.Forall2
import Verif.Model.Types
import Verif.Spec.Classes
/-!
# Specification: Rust types of one layout

Names of types, fields and variants, and whether members are those of a structure, a tuple structure, a tuple, a newtype
or an array, do not matter. `Layout B` says that `B` relates only types of one layout: each pair is of one kind, and what
they are made of is related again. (Like a bisimulation, so that types may contain themselves.)
-/

namespace Xdr.Wire

/-- The types of the members of a type that has members, in their order. -/
inductive Members (env : Env) : Ty → List Ty → Prop
  | tuple {ts : List Ty} : Members env (.tuple ts) ts
  | array {n : Nat} {t : Ty} : Members env (.array n t) (List.replicate n t)
  | newtypeStruct {name : String} {t : Ty} : env name = some (.newtypeStruct t) → Members env (.named name) [t]
  | tupleStruct {name : String} {ts : List Ty} : env name = some (.tupleStruct ts) → Members env (.named name) ts
  | struct {name : String} {fs : List (String × Ty)} : env name = some (.struct fs) →
      Members env (.named name) (fs.map (·.2))

/-- `()` and structures without fields. -/
inductive NoContent (env : Env) : Ty → Prop
  | unit : NoContent env .unit
  | unitStruct {name : String} : env name = some .unitStruct → NoContent env (.named name)

/-- Types written in one way, both read into the same kind of value. -/
inductive Plain : Ty → Ty → Prop
  | same {t : Ty} : t ∈ [.bool, .i8, .i16, .i32, .i64, .u8, .u16, .u32, .u64, .f32, .f64, .char, .string] → Plain t t
  /-- The two ways of opaque data of variable length. -/
  | opaque {t t' : Ty} : t ∈ [.bytes, .opaqueVar] → t' ∈ [.bytes, .opaqueVar] → Plain t t'
  | opaqueFixed {n : Nat} : Plain (.opaqueFixed n) (.opaqueFixed n)
  | signed32 {name name' : String} {impl : Signed32Impl} : Plain (.signed32 name impl) (.signed32 name' impl)

/-- Two types are of one kind, and what they are made of is related by `B`. -/
inductive OneKind (env env' : Env) (B : Ty → Ty → Prop) : Ty → Ty → Prop
  | plain {t t' : Ty} : Plain t t' → OneKind env env' B t t'
  | noContent {t t' : Ty} : NoContent env t → NoContent env' t' → OneKind env env' B t t'
  | option {t t' : Ty} : B t t' → OneKind env env' B (.option t) (.option t')
  | vec {t t' : Ty} : B t t' → OneKind env env' B (.vec t) (.vec t')
  | map {k k' t t' : Ty} : B k k' → B t t' → OneKind env env' B (.map k t) (.map k' t')
  | members {t t' : Ty} {ts ts' : List Ty} : Members env t ts → Members env' t' ts' → List.Forall₂ B ts ts' →
      OneKind env env' B t t'
  /-- Variants may be called otherwise. -/
  | enum {name name' : String} {vars vars' : List (String × Shape)} : env name = some (.enum vars) →
      env' name' = some (.enum vars') →
      List.Forall₂ (fun x x' => List.Forall₂ B x.2.types x'.2.types) vars vars' →
      OneKind env env' B (.named name) (.named name')
  /-- The user's code knows variants by name. -/
  | indexer {name name' : String} {vars vars' : List (String × Option (List Ty))} {impl : IndexerImpl} :
      env name = some (.indexer vars impl) → env' name' = some (.indexer vars' impl) →
      List.Forall₂ (fun x x' => x.1 = x'.1 ∧ List.Forall₂ B (x.2.getD []) (x'.2.getD [])) vars vars' →
      OneKind env env' B (.named name) (.named name')
  | union {name name' : String} {disc disc' : Ty} {vars vars' : List (String × Option (List Ty))} {impl : UnionImpl} :
      env name = some (.union disc vars impl) → env' name' = some (.union disc' vars' impl) → B disc disc' →
      List.Forall₂ (fun x x' => x.1 = x'.1 ∧ List.Forall₂ B (x.2.getD []) (x'.2.getD [])) vars vars' →
      OneKind env env' B (.named name) (.named name')

/-- `B` relates only types of one layout. -/
def Layout (env env' : Env) (B : Ty → Ty → Prop) : Prop := ∀ t t', B t t' → OneKind env env' B t t'

/-- Fields read as numbers (`signed32`) that are related belong to enums with the same positions of unit variants. -/
def SamePositions (env env' : Env) (B : Ty → Ty → Prop) : Prop :=
  ∀ name name' impl, B (.signed32 name impl) (.signed32 name' impl) → ∀ (vars : List (String × Shape)) (i : Nat)
    (vn : String), env name = some (.enum vars) → vars[i]? = some (vn, .unit) →
    ∃ (vars' : List (String × Shape)) (vn' : String), env' name' = some (.enum vars') ∧ vars'[i]? = some (vn', .unit)

end Xdr.Wire
