import Verif.Spec.Reaches
/-! # How many parts a value has -/

namespace Xdr

/-- The parts every value of the type has. -/
def Ty.always (env : Env) : Ty → List Ty
  | .array n t => List.replicate n t
  | .tuple ts => ts
  | .named name => match env name with
    | some (.newtypeStruct t) => [t]
    | some (.tupleStruct ts) => ts
    | some (.struct fs) => fs.map (·.2)
    | some (.union disc _ _) => [disc]
    | _ => []
  | _ => []

/-- The groups of parts a value has or not, as a word of the message says: what an option contains, an
element of a list, an entry of a map, the fields of a variant. -/
def Ty.groups (env : Env) : Ty → List (List Ty)
  | .option t => [[t]]
  | .vec t => [[t]]
  | .map k v => [[k, v]]
  | .named name => match env name with
    | some (.enum vars) => vars.map fun v => v.2.types
    | some (.indexer vars _) => vars.map fun v => v.2.getD []
    -- the discriminant is the first field of each variant
    | some (.union _ vars _) => vars.map fun v => (v.2.getD []).tail
    | _ => []
  | _ => []

mutual
/-- A value of the type, with the parts every value has, and theirs, is so many values. -/
inductive Weighs (env : Env) : Ty → Nat → Prop
  | mk {t : Ty} {k : Nat} : WeighTogether env (t.always env) k → Weighs env t (1 + k)

/-- Values of the types are so many, together. -/
inductive WeighTogether (env : Env) : List Ty → Nat → Prop
  | nil : WeighTogether env [] 0
  | cons {t : Ty} {ts : List Ty} {k l : Nat} : Weighs env t k → WeighTogether env ts l →
      WeighTogether env (t :: ts) (k + l)
end

/-- Inside a `t`, what an option contains, an element of a list, an entry of a map and the fields of a
variant are at most `W` values. -/
def GroupsWithin (env : Env) (W : Nat) (t : Ty) : Prop :=
  ∀ u, Reaches env t u → ∀ g ∈ u.groups env, ∃ k ≤ W, WeighTogether env g k

/-- Inside a `t`, elements of lists and entries of maps take at least four bytes. -/
def ElementsSized (env : Env) (t : Ty) : Prop :=
  (∀ e, Reaches env t (.vec e) → Sized env e) ∧
    ∀ k v, Reaches env t (.map k v) → Sized env k ∨ Sized env v

/-- A number, a text, a list, an option or an enum: not a product of others, and not a union. -/
def Ty.Simple (env : Env) : Ty → Prop
  | .array _ _ | .tuple _ | .unit | .opaqueFixed _ => False
  | .named name => match env name with
    | some (.enum _) | some (.indexer _ _) => True
    | _ => False
  | _ => True

/-- Inside a `t`, the discriminants of unions are simple. -/
def DiscriminantsSimple (env : Env) (t : Ty) : Prop :=
  ∀ name disc vars impl, Reaches env t (.named name) → env name = some (.union disc vars impl) →
    disc.Simple env

end Xdr
