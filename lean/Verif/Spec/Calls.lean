import Verif.Rpcgen.Ast
/-!
# How often a type is read

The number of times `parse` reads the text at the head of a declaration or procedure as a type, told
from the syntax tree alone. A declaration `type name` is read four times: as a fixed array, as a
variable array, as an optional and as what it is. What is inside the type is read again each time.
-/

namespace Xdr.Rpcgen

mutual
/-- One call, and those for the members. -/
def TypeSpecifier.calls : TypeSpecifier → Nat
  | .struct body => 1 + (declsCalls body + 4)
  | .union body => 1 + body.calls
  | _ => 1

/-- The kinds of declaration that begin with a type are tried in this order. -/
def Declaration.calls : Declaration → Nat
  | .fixedArray ty _ _ => ty.calls
  | .variableArray ty _ _ => 2 * ty.calls
  | .optionVariable ty _ => 3 * ty.calls
  | .variable ty _ => 4 * ty.calls
  | _ => 0

def declsCalls : List Declaration → Nat
  | [] => 0
  | d :: ds => d.calls + declsCalls ds

def UnionBody.calls : UnionBody → Nat
  | .mk cond specs default => cond.calls + (casesCalls specs + defaultCalls default)

def casesCalls : List CaseSpec → Nat
  | [] => 0
  | c :: cs => c.calls + casesCalls cs

def CaseSpec.calls : CaseSpec → Nat
  | .mk _ d => d.calls

def defaultCalls : Option Declaration → Nat
  | none => 0
  | some d => d.calls
end

mutual
/-- How deep structs and unions without a name stand inside each other. -/
def TypeSpecifier.depth : TypeSpecifier → Nat
  | .struct body => 1 + declsDepth body
  | .union body => 1 + body.depth
  | _ => 0

def Declaration.depth : Declaration → Nat
  | .fixedArray ty _ _ => ty.depth
  | .variableArray ty _ _ => ty.depth
  | .optionVariable ty _ => ty.depth
  | .variable ty _ => ty.depth
  | _ => 0

def declsDepth : List Declaration → Nat
  | [] => 0
  | d :: ds => max d.depth (declsDepth ds)

def UnionBody.depth : UnionBody → Nat
  | .mk cond specs default => max cond.depth (max (casesDepth specs) (defaultDepth default))

def casesDepth : List CaseSpec → Nat
  | [] => 0
  | c :: cs => max c.depth (casesDepth cs)

def CaseSpec.depth : CaseSpec → Nat
  | .mk _ d => d.depth

def defaultDepth : Option Declaration → Nat
  | none => 0
  | some d => d.depth
end

/-- The structs and unions that have a name do not count. -/
def TypeDef.depth : TypeDef → Nat
  | .declaration d => d.depth
  | .enum _ _ => 0
  | .struct _ body => declsDepth body
  | .union _ body => body.depth

/-- No type in the file nests deeper than this. -/
def NestsWithin (k : Nat) (ds : List Definition) : Prop := ∀ d ∈ ds,
  match d with
  | .type t => t.depth ≤ k
  | .program p => ∀ v ∈ p.versions, ∀ q ∈ v.procedures, q.res_ty.depth ≤ k ∧ q.req_ty.depth ≤ k
  | _ => True

/-- The members of a struct end where no declaration can be read: four more calls. -/
def TypeDef.calls : TypeDef → Nat
  | .declaration d => d.calls
  | .enum _ _ => 0
  | .struct _ body => declsCalls body + 4
  | .union _ body => body.calls

/-- `void` is first read as a type. -/
def Procedure.calls (p : Procedure) : Nat := p.res_ty.calls + p.req_ty.calls

/-- The procedures end where no type can be read: one more call. -/
def Version.calls (v : Version) : Nat := (v.procedures.map Procedure.calls).sum + 1

def Definition.calls : Definition → Nat
  | .type d => d.calls
  | .constant _ => 0
  | .lineComment => 0
  | .program p => (p.versions.map Version.calls).sum

/-- The calls for a file. -/
def fileCalls (ds : List Definition) : Nat := (ds.map Definition.calls).sum

end Xdr.Rpcgen
