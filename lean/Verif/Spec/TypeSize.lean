import Verif.Model.Types
import Verif.Spec.Classes
/-!
# Specification: how many bytes the values of a Rust type take

`TypeSize env t lo hi` says: `lo` bytes at least and, if `hi` is not `none`, `hi` at most. It is a table, one line per
kind of type, that follows RFC 4506 section 4 and mentions neither readers nor writers.
-/

namespace Xdr.Wire

/-- The greatest size of one thing and another after it. -/
def plus : Option Nat → Option Nat → Option Nat
  | some a, some b => some (a + b)
  | _, _ => none

/-- The limit `hi` is no more than the limit `hi'`. -/
def NoMore (hi hi' : Option Nat) : Prop := ∀ m, hi' = some m → ∃ k, hi = some k ∧ k ≤ m

mutual
/-- Of a type. -/
inductive TypeSize (env : Env) : Ty → Nat → Option Nat → Prop
  /-- Everything of 32 bits or less is a word. -/
  | word {t : Ty} : t ∈ [.bool, .i8, .i16, .i32, .u8, .u16, .u32, .f32, .char] → TypeSize env t 4 (some 4)
  | dword {t : Ty} : t ∈ [.i64, .u64, .f64] → TypeSize env t 8 (some 8)
  | unit : TypeSize env .unit 0 (some 0)
  /-- A count, and that many bytes, elements or entries. -/
  | counted {t : Ty} : (t ∈ [.string, .bytes, .opaqueVar] ∨ (∃ s, t = .vec s) ∨ ∃ a b, t = .map a b) →
      TypeSize env t 4 none
  /-- With its padding. -/
  | opaqueFixed {n : Nat} : TypeSize env (.opaqueFixed n) ((n + 3) / 4 * 4) (some ((n + 3) / 4 * 4))
  | option {t : Ty} {lo : Nat} {hi : Option Nat} : TypeSize env t lo hi →
      TypeSize env (.option t) 4 (plus (some 4) hi)
  | array {t : Ty} {n lo : Nat} {hi : Option Nat} : TypeSize env t lo hi →
      TypeSize env (.array n t) (n * lo) (hi.map (n * ·))
  | tuple {ts : List Ty} {lo : Nat} {hi : Option Nat} : TypeSizes env ts lo hi → TypeSize env (.tuple ts) lo hi
  | signed32 {name : String} {impl : Signed32Impl} : TypeSize env (.signed32 name impl) 4 (some 4)
  | unitStruct {name : String} : env name = some .unitStruct → TypeSize env (.named name) 0 (some 0)
  | newtypeStruct {name : String} {t : Ty} {lo : Nat} {hi : Option Nat} : env name = some (.newtypeStruct t) →
      TypeSize env t lo hi → TypeSize env (.named name) lo hi
  | tupleStruct {name : String} {ts : List Ty} {lo : Nat} {hi : Option Nat} : env name = some (.tupleStruct ts) →
      TypeSizes env ts lo hi → TypeSize env (.named name) lo hi
  | struct {name : String} {fs : List (String × Ty)} {lo : Nat} {hi : Option Nat} : env name = some (.struct fs) →
      TypeSizes env (fs.map (·.2)) lo hi → TypeSize env (.named name) lo hi
  /-- A word and the members of one of the variants. -/
  | enum {name : String} {vars : List (String × Shape)} {lo : Nat} {hi : Option Nat} : env name = some (.enum vars) →
      (∀ x ∈ vars, TypeSizes env x.2.types lo hi) → TypeSize env (.named name) (4 + lo) (plus (some 4) hi)
  | indexer {name : String} {vars : List (String × Option (List Ty))} {impl : IndexerImpl} {lo : Nat}
      {hi : Option Nat} : env name = some (.indexer vars impl) →
      (∀ x ∈ vars, TypeSizes env (x.2.getD []) lo hi) → TypeSize env (.named name) (4 + lo) (plus (some 4) hi)
  /-- The discriminant, which is the first member of the variants, and the others. -/
  | union {name : String} {disc : Ty} {vars : List (String × Option (List Ty))} {impl : UnionImpl} {l lo : Nat}
      {h hi : Option Nat} : env name = some (.union disc vars impl) → TypeSize env disc l h →
      (∀ x ∈ vars, TypeSizes env (x.2.getD []).tail lo hi) → TypeSize env (.named name) (l + lo) (plus h hi)
  /-- Limits that leave more room. -/
  | wider {t : Ty} {lo lo' : Nat} {hi hi' : Option Nat} : TypeSize env t lo hi → lo' ≤ lo → NoMore hi hi' →
      TypeSize env t lo' hi'
  /-- Nothing is said; for types that contain themselves. -/
  | any {t : Ty} : TypeSize env t 0 none

/-- Of members, one after the other. -/
inductive TypeSizes (env : Env) : List Ty → Nat → Option Nat → Prop
  | nil : TypeSizes env [] 0 (some 0)
  | cons {t : Ty} {ts : List Ty} {lo lo' : Nat} {hi hi' : Option Nat} : TypeSize env t lo hi →
      TypeSizes env ts lo' hi' → TypeSizes env (t :: ts) (lo + lo') (plus hi hi')
  | wider {ts : List Ty} {lo lo' : Nat} {hi hi' : Option Nat} : TypeSizes env ts lo hi → lo' ≤ lo → NoMore hi hi' →
      TypeSizes env ts lo' hi'
end

end Xdr.Wire
