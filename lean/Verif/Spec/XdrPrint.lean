import Verif.Spec.XdrText
/-!
# Printing a syntax tree, and what makes a tree printable

`printFile ds` is one text of `ds`, in the usual layout. `atoms ds` lists everything in the tree that
the grammar restricts: names, numbers, and the sizes of bodies and label lists.
-/

namespace Xdr.Rpcgen

/-- What a tree contains. -/
inductive Atom where
  /-- a name -/
  | ident (s : Str)
  /-- a number -/
  | number (c : Constant)
  /-- the number of members of an enum, struct, union (cases), case (labels), program or version -/
  | body (n : Nat)
  /-- `void` used as a type specifier outside a procedure -/
  | voidType

def Value.atoms : Value → List Atom
  | .constant c => [.number c]
  | .identifier s => [.ident s]

def optAtoms : Option Value → List Atom
  | none => []
  | some v => v.atoms

def Assign.atoms (a : Assign) : List Atom := .ident a.identifier :: a.value.atoms

def enumAtoms (body : List Assign) : List Atom := .body body.length :: body.flatMap Assign.atoms

mutual
def TypeSpecifier.atoms : TypeSpecifier → List Atom
  | .enum body => enumAtoms body
  | .struct body => .body body.length :: declsAtoms body
  | .union body => body.atoms
  | .identifier s => [.ident s]
  | .void => [.voidType]
  | _ => []

def Declaration.atoms : Declaration → List Atom
  | .variable ty name => .ident name :: ty.atoms
  | .fixedArray ty name len => .ident name :: (ty.atoms ++ len.atoms)
  | .variableArray ty name max => .ident name :: (ty.atoms ++ optAtoms max)
  | .opaqueFixedArray name len => .ident name :: len.atoms
  | .opaqueVariableArray name max => .ident name :: optAtoms max
  | .string name max => .ident name :: optAtoms max
  | .optionVariable ty name => .ident name :: ty.atoms
  | .void => []

def declsAtoms : List Declaration → List Atom
  | [] => []
  | d :: ds => d.atoms ++ declsAtoms ds

def UnionBody.atoms : UnionBody → List Atom
  | .mk cond specs default =>
    .body specs.length :: (cond.atoms ++ casesAtoms specs ++ defaultAtoms default)

def casesAtoms : List CaseSpec → List Atom
  | [] => []
  | c :: cs => c.atoms ++ casesAtoms cs

def CaseSpec.atoms : CaseSpec → List Atom
  | .mk values d => .body values.length :: (values.flatMap Value.atoms ++ d.atoms)

def defaultAtoms : Option Declaration → List Atom
  | none => []
  | some d => d.atoms
end

def TypeDef.atoms : TypeDef → List Atom
  | .declaration d => d.atoms
  | .enum name body => .ident name :: enumAtoms body
  | .struct name body => .ident name :: .body body.length :: declsAtoms body
  | .union name body => .ident name :: body.atoms

/-- In a procedure the type may be `void`. -/
def procTypeAtoms : TypeSpecifier → List Atom
  | .void => []
  | t => t.atoms

def Procedure.atoms (p : Procedure) : List Atom :=
  .ident p.method :: (procTypeAtoms p.res_ty ++ procTypeAtoms p.req_ty ++ p.value.atoms)

def Version.atoms (v : Version) : List Atom :=
  .ident v.name :: .body v.procedures.length :: (v.procedures.flatMap Procedure.atoms ++ v.value.atoms)

def Program.atoms (p : Program) : List Atom :=
  .ident p.name :: .body p.versions.length :: (p.versions.flatMap Version.atoms ++ p.value.atoms)

def Definition.atoms : Definition → List Atom
  | .type d => d.atoms
  | .constant a => a.atoms
  | .lineComment => []
  | .program p => p.atoms

/-- Everything a file contains. -/
def atoms (ds : List Definition) : List Atom := ds.flatMap Definition.atoms

/-- Names are identifiers, numbers can be written down, no body is empty. -/
def Atom.Ok : Atom → Prop
  | .ident s => Ident s
  | .number c => ∃ s, ConstantText c s
  | .body n => n ≠ 0
  | .voidType => False

/-- The trees that the language can express. -/
def WellFormed (ds : List Definition) : Prop := ∀ a ∈ atoms ds, a.Ok

/-! ## The printer -/

/-- The blank after a keyword, where a name needs none. -/
def TypeSpecifier.pad (ty : TypeSpecifier) : Str := if ty.isKeyword then c!" " else []


def Constant.print : Constant → Str
  | .decimal d => d
  | .hex d => c!"0x" ++ d
  | .octal d => c!"0" ++ d

def Value.print : Value → Str
  | .constant c => c.print
  | .identifier s => s

def optPrint : Option Value → Str
  | none => []
  | some v => v.print

def Assign.print (a : Assign) : Str := a.identifier ++ c!" = " ++ a.value.print

/-- `{ A = 1, B = 2 }` -/
def enumPrint : List Assign → Str
  | [] => c!"{ }"
  | a :: as => c!"{ " ++ a.print ++ as.flatMap (fun x => c!", " ++ x.print) ++ c!" }"

/-- `case A: case B: ` -/
def labelsPrint (vs : List Value) : Str := vs.flatMap fun v => c!"case " ++ v.print ++ c!": "

mutual
def TypeSpecifier.print : TypeSpecifier → Str
  | .int true => c!"int"
  | .int false => c!"unsigned int"
  | .hyper true => c!"hyper"
  | .hyper false => c!"unsigned hyper"
  | .float => c!"float"
  | .double => c!"double"
  | .quadruple => c!"quadruple"
  | .bool => c!"bool"
  | .enum body => c!"enum " ++ enumPrint body
  | .struct body => c!"struct { " ++ declsPrint body ++ c!"}"
  | .union body => c!"union " ++ body.print
  | .identifier s => s
  | .char true => c!"char"
  | .char false => c!"unsigned char"
  | .short true => c!"short"
  | .short false => c!"unsigned short"
  | .void => c!"void"

def Declaration.print : Declaration → Str
  | .variable ty name => ty.print ++ c!" " ++ name
  | .fixedArray ty name len => ty.print ++ c!" " ++ name ++ c!"[" ++ len.print ++ c!"]"
  | .variableArray ty name max => ty.print ++ c!" " ++ name ++ c!"<" ++ optPrint max ++ c!">"
  | .opaqueFixedArray name len => c!"opaque " ++ name ++ c!"[" ++ len.print ++ c!"]"
  | .opaqueVariableArray name max => c!"opaque " ++ name ++ c!"<" ++ optPrint max ++ c!">"
  | .string name max => c!"string " ++ name ++ c!"<" ++ optPrint max ++ c!">"
  | .optionVariable ty name => ty.print ++ ty.pad ++ c!"*" ++ name
  | .void => c!"void"

def declsPrint : List Declaration → Str
  | [] => []
  | d :: ds => d.print ++ c!"; " ++ declsPrint ds

def UnionBody.print : UnionBody → Str
  | .mk cond specs default =>
    c!"switch (" ++ cond.print ++ c!") { " ++ casesPrint specs ++ defaultPrint default ++ c!"}"

def casesPrint : List CaseSpec → Str
  | [] => []
  | c :: cs => c.print ++ c!"; " ++ casesPrint cs

def CaseSpec.print : CaseSpec → Str
  | .mk values d => labelsPrint values ++ d.print

def defaultPrint : Option Declaration → Str
  | none => []
  | some d => c!"default: " ++ d.print ++ c!"; "
end

def TypeDef.print : TypeDef → Str
  | .declaration d => c!"typedef " ++ d.print ++ c!";\n"
  | .enum name body => c!"enum " ++ name ++ c!" " ++ enumPrint body ++ c!";\n"
  | .struct name body => c!"struct " ++ name ++ c!" { " ++ declsPrint body ++ c!"};\n"
  | .union name body => c!"union " ++ name ++ c!" " ++ body.print ++ c!";\n"

def Procedure.print (p : Procedure) : Str :=
  p.res_ty.print ++ c!" " ++ p.method ++ c!"(" ++ p.req_ty.print ++ p.req_ty.pad ++ c!") = " ++ p.value.print ++ c!"; "

def Version.print (v : Version) : Str :=
  c!"version " ++ v.name ++ c!" { " ++ v.procedures.flatMap Procedure.print ++ c!"} = " ++
    v.value.print ++ c!";"

def Program.print (p : Program) : Str :=
  c!"program " ++ p.name ++ c!" { " ++ p.versions.flatMap Version.print ++ c!" } = " ++
    p.value.print ++ c!";\n"

def Definition.print : Definition → Str
  | .type d => d.print
  | .constant a => c!"const " ++ a.print ++ c!";\n"
  | .lineComment => c!"%\n"
  | .program p => p.print

/-- One text of a file. -/
def printFile (ds : List Definition) : Str := ds.flatMap Definition.print

end Xdr.Rpcgen
