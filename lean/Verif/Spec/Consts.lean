import Verif.Rpcgen.Rust
import Verif.Rpcgen.Names
import Verif.Spec.Resolve
/-!
# Constants: what the interface says and what Rust makes of the generated declarations
-/

namespace Xdr.Rpcgen

/-- The constants of a file, in its order. -/
def constants (ds : List Definition) : List Assign :=
  ds.filterMap fun
    | .constant a => some a
    | _ => none

/-- The Rust declaration of a constant: `u32` if the literal fits, otherwise `u64`; a name stays a name. -/
inductive DeclaredAs : Assign → ConstItem → Prop
  | narrow {name : Str} {c : Constant} : 0 ≤ c.number → c.number < 2 ^ 32 →
      DeclaredAs ⟨name, .constant c⟩ ⟨⟨false, name⟩, .u32, .lit .u32 c.number⟩
  | wide {name : Str} {c : Constant} : 2 ^ 32 ≤ c.number → c.number < 2 ^ 64 →
      DeclaredAs ⟨name, .constant c⟩ ⟨⟨false, name⟩, .u64, .lit .u64 c.number⟩
  | name {name other : Str} : DeclaredAs ⟨name, .identifier other⟩ ⟨⟨false, name⟩, .u32, .ident ⟨false, other⟩⟩

/-- Rust: the expression has the type and the value. Other constants in it have the same type. -/
inductive ConstEval (cs : List ConstItem) : IntTy → Tok → Int → Prop
  | lit {t : IntTy} {v : Int} : ConstEval cs t (.lit t v) v
  | name {i : RIdent} {c : ConstItem} {v : Int} : (cs.find? fun c => c.name = i) = some c →
      ConstEval cs c.ty c.value v → ConstEval cs c.ty (.ident i) v

/-- `v` is the number `k`, through names of constants only. -/
inductive ThroughConstants (ds : List Definition) : Value → Int → Prop
  | literal (c : Constant) : ThroughConstants ds (.constant c) c.number
  | name {name : Str} {v : Value} {k : Int} : constOf ds name = some v → ThroughConstants ds v k →
      ThroughConstants ds (.identifier name) k

end Xdr.Rpcgen
