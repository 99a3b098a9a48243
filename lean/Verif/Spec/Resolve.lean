import Verif.Spec.Numbers
import Mathlib.Data.List.Forall2
/-!
# What a symbolic value stands for

Written from the definitions of a file, apart from the generator.
-/

namespace Xdr.Rpcgen

/-- The value of a constant: the first `const` definition of that name. -/
def constOf (ds : List Definition) (name : Str) : Option Value :=
  ds.findSome? fun
    | .constant a => if a.identifier = name then some a.value else none
    | _ => none

/-- The value of an enum member: the first member of that name, in the order of the file. -/
def memberOf (ds : List Definition) (name : Str) : Option Value :=
  ds.findSome? fun
    | .type (.enum _ members) => (members.find? fun a => a.identifier = name).map (·.value)
    | _ => none

/-- What a name stands for; constants come before enum members. -/
def lookup (ds : List Definition) (name : Str) : Option Value :=
  (constOf ds name).or (memberOf ds name)

/-- `v` stands for the literal `c`, through any number of names. -/
inductive Denotes (ds : List Definition) : Value → Constant → Prop
  | literal (c : Constant) : Denotes ds (.constant c) c
  | name {name : Str} {v : Value} {c : Constant} : lookup ds name = some v → Denotes ds v c →
      Denotes ds (.identifier name) c

/-- `v` stands for the number `k`. -/
def Stands (ds : List Definition) (v : Value) (k : Int) : Prop := ∃ c, Denotes ds v c ∧ c.number = k

/-- The members of an enum stand for the numbers `ks`, which are different and fit an XDR enum. -/
structure Numbered (ds : List Definition) (as : List Assign) (ks : List Int) : Prop where
  stands : List.Forall₂ (fun (a : Assign) k => Stands ds a.value k) as ks
  distinct : ks.Nodup
  range : ∀ k ∈ ks, -2147483648 ≤ k ∧ k ≤ 2147483647

/-- `v` leads, through any number of names, to a name that is not defined. -/
inductive Dangling (ds : List Definition) : Value → Prop
  | unknown {name : Str} : lookup ds name = none → Dangling ds (.identifier name)
  | name {name : Str} {v : Value} : lookup ds name = some v → Dangling ds v →
      Dangling ds (.identifier name)

/-- Some definition of `a` is the name `b`. -/
def Uses (ds : List Definition) (a b : Str) : Prop :=
  constOf ds a = some (.identifier b) ∨ memberOf ds a = some (.identifier b)

/-- `b` is used by `a`, in one or more steps. -/
inductive Reaches (ds : List Definition) : Str → Str → Prop
  | step {a b : Str} : Uses ds a b → Reaches ds a b
  | more {a b c : Str} : Reaches ds a b → Uses ds b c → Reaches ds a c

/-- No definition uses itself. -/
def Acyclic (ds : List Definition) : Prop := ∀ a, ¬ Reaches ds a a

/-- The names a file defines as constants or enum members. -/
def definedNames (ds : List Definition) : List Str :=
  ds.flatMap fun
    | .constant a => [a.identifier]
    | .type (.enum _ members) => members.map (·.identifier)
    | _ => []

/-- No name is both a constant and an enum member. -/
def NoClash (ds : List Definition) : Prop := ∀ name, constOf ds name = none ∨ memberOf ds name = none

/-- What comes of a value used as a number between `lo` and `hi`: a number, or no number (`none`). A name
is the constant of that name; if there is none, or it comes to no number, it is the enum member of that
name. The last step is what the generator does, and is not what `Denotes` says. -/
inductive Outcome (ds : List Definition) (lo hi : Int) : Value → Option Int → Prop
  | literal {c : Constant} : lo ≤ c.number → c.number ≤ hi → Outcome ds lo hi (.constant c) (some c.number)
  | unfit {c : Constant} : ¬ (lo ≤ c.number ∧ c.number ≤ hi) → Outcome ds lo hi (.constant c) none
  | const {name : Str} {v : Value} {k : Int} : constOf ds name = some v → Outcome ds lo hi v (some k) →
      Outcome ds lo hi (.identifier name) (some k)
  | member {name : Str} {v : Value} {o : Option Int} :
      (∀ w, constOf ds name = some w → Outcome ds lo hi w none) →
      memberOf ds name = some v → Outcome ds lo hi v o → Outcome ds lo hi (.identifier name) o
  | unknown {name : Str} : (∀ w, constOf ds name = some w → Outcome ds lo hi w none) →
      memberOf ds name = none → Outcome ds lo hi (.identifier name) none

/-- The name a name stands for, where the search goes on: its constant is the name `b`, or the constant
comes to no number and the enum member is the name `b`. -/
def Follows (ds : List Definition) (lo hi : Int) (a b : Str) : Prop :=
  constOf ds a = some (.identifier b) ∨
  (∀ w, constOf ds a = some w → Outcome ds lo hi w none) ∧ memberOf ds a = some (.identifier b)

end Xdr.Rpcgen
