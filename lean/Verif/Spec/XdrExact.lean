import Verif.Spec.XdrText
/-!
# The exact language of the tool

The grammar of `Verif/Spec/XdrText.lean` once more, with the three conditions under which the tool
departs from it. Each comes from a word that RFC 4506 does not reserve or from a keyword the tool
recognises by its letters alone:

* a type name that begins with the letters `void` cannot begin a declaration (`HeadOk`);
* `char` and `short` are names of types unless a blank follows them, and then they are keywords
  (`ShortType`);
* in `unsigned char`, the second word is the name of the variable unless a blank follows it, and then
  it is part of the type.
-/

namespace Xdr.Rpcgen

/-- A blank comes first. -/
def Spaced (s : Str) : Prop := ∃ b u, Blank1 b ∧ s = b ++ u

/-- The two words that are keywords of the tool and are not reserved. -/
def ShortWord (name : Str) : Prop := name = c!"char" ∨ name = c!"short"

/-- A type the file names `char` or `short`. -/
def ShortType : TypeSpecifier → Prop
  | .identifier name => ShortWord name
  | _ => False

mutual
/-- Type specifiers. -/
def TypeExact : TypeSpecifier → Str → Prop
  | .int true, s => s = c!"int"
  | .int false, s => s = c!"unsigned" ∨ ∃ b, Blank1 b ∧ s = c!"unsigned" ++ b ++ c!"int"
  | .hyper true, s => s = c!"hyper"
  | .hyper false, s => ∃ b, Blank1 b ∧ s = c!"unsigned" ++ b ++ c!"hyper"
  | .char true, s => s = c!"char"
  | .char false, s => ∃ b, Blank1 b ∧ s = c!"unsigned" ++ b ++ c!"char"
  | .short true, s => s = c!"short"
  | .short false, s => ∃ b, Blank1 b ∧ s = c!"unsigned" ++ b ++ c!"short"
  | .float, s => s = c!"float"
  | .double, s => s = c!"double"
  | .quadruple, s => s = c!"quadruple"
  | .bool, s => s = c!"bool"
  | .enum body, s => ∃ b t, Blank1 b ∧ EnumText body t ∧ s = c!"enum" ++ b ++ t
  | .struct body, s => ∃ b g t, Blank1 b ∧ Gap g ∧ body ≠ [] ∧ MembersExact body t ∧
      s = c!"struct" ++ b ++ c!"{" ++ g ++ t ++ c!"}"
  | .union body, s => ∃ b t, Blank1 b ∧ UnionExact body t ∧ s = c!"union" ++ b ++ t
  | .identifier name, s => s = name ∧ Ident name
  | .void, _ => False

/-- Declarations, `s` being the text of the declaration and `r` what follows it. -/
def DeclExact : Declaration → Str → Str → Prop
  | .void, _, s => s = c!"void"
  | .opaqueFixedArray name len, _, s => ∃ b v, Blank1 b ∧ Ident name ∧ ValueText len v ∧
      s = c!"opaque" ++ b ++ name ++ c!"[" ++ v ++ c!"]"
  | .opaqueVariableArray name max, _, s => ∃ b v, Blank1 b ∧ Ident name ∧ OptValueText max v ∧
      s = c!"opaque" ++ b ++ name ++ c!"<" ++ v ++ c!">"
  | .string name max, _, s => ∃ b v, Blank1 b ∧ Ident name ∧ OptValueText max v ∧
      s = c!"string" ++ b ++ name ++ c!"<" ++ v ++ c!">"
  | .fixedArray ty name len, _, s => ∃ t b v, TypeExact ty t ∧ HeadOk ty ∧
      ¬ ShortType ty ∧ Blank1 b ∧ Ident name ∧
      ValueText len v ∧ s = t ++ b ++ name ++ c!"[" ++ v ++ c!"]"
  | .variableArray ty name max, _, s => ∃ t b v, TypeExact ty t ∧ HeadOk ty ∧
      ¬ ShortType ty ∧ Blank1 b ∧ Ident name ∧
      OptValueText max v ∧ s = t ++ b ++ name ++ c!"<" ++ v ++ c!">"
  | .optionVariable ty name, _, s => ∃ t b b', TypeExact ty t ∧ HeadOk ty ∧
      (ShortType ty → b = []) ∧ Blank b ∧
      (ty.isKeyword = true → b ≠ []) ∧ Blank b' ∧ Ident name ∧ s = t ++ b ++ c!"*" ++ b' ++ name
  | .variable ty name, r, s => ∃ t b, TypeExact ty t ∧ HeadOk ty ∧ ¬ ShortType ty ∧
      Blank1 b ∧ Ident name ∧ (t = c!"unsigned" → ShortWord name → ¬ Spaced r) ∧
      s = t ++ b ++ name

/-- Members of a structure, each ended by a semicolon. -/
def MembersExact : List Declaration → Str → Prop
  | [], s => s = []
  | d :: ds, s => ∃ t g1 g2 u, DeclExact d g1 t ∧ Gap g1 ∧ Gap g2 ∧ MembersExact ds u ∧
      s = t ++ g1 ++ c!";" ++ g2 ++ u

/-- `switch (..) { cases default }`, at least one case. -/
def UnionExact : UnionBody → Str → Prop
  | .mk cond specs default, s => ∃ g1 g2 g3 g4 g5 t u w,
      Gap g1 ∧ Gap g2 ∧ Gap g3 ∧ Gap g4 ∧ Gap g5 ∧
      DeclExact cond g3 t ∧ specs ≠ [] ∧ CasesExact specs u ∧ DefaultExact default w ∧
      s = c!"switch" ++ g1 ++ c!"(" ++ g2 ++ t ++ g3 ++ c!")" ++ g4 ++ c!"{" ++ g5 ++
        u ++ w ++ c!"}"

/-- The cases of a union. -/
def CasesExact : List CaseSpec → Str → Prop
  | [], s => s = []
  | c :: cs, s => ∃ t g u, CaseExact c t ∧ Gap g ∧ CasesExact cs u ∧ s = t ++ g ++ u

/-- A case: at least one label, and a declaration. -/
def CaseExact : CaseSpec → Str → Prop
  | .mk values d, s => ∃ t u g, values ≠ [] ∧ LabelsText values t ∧ DeclExact d g u ∧ Gap g ∧
      s = t ++ u ++ g ++ c!";"

/-- The default arm, if any. -/
def DefaultExact : Option Declaration → Str → Prop
  | none, s => s = []
  | some d, s => ∃ g1 g2 g3 g4 t, Gap g1 ∧ Gap g2 ∧ Gap g3 ∧ Gap g4 ∧ DeclExact d g3 t ∧
      s = c!"default" ++ g1 ++ c!":" ++ g2 ++ t ++ g3 ++ c!";" ++ g4
end

/-- Type definitions. -/
def TypeDefExact : TypeDef → Str → Prop
  | .declaration d, s => ∃ b g t, Blank1 b ∧ Gap g ∧ DeclExact d g t ∧
      s = c!"typedef" ++ b ++ t ++ g ++ c!";"
  | .enum name body, s => ∃ b g g' t, Blank1 b ∧ Gap g ∧ Gap g' ∧ Ident name ∧ EnumText body t ∧
      s = c!"enum" ++ b ++ name ++ g ++ t ++ g' ++ c!";"
  | .struct name body, s => ∃ b g g1 g' t, Blank1 b ∧ Gap g ∧ Gap g1 ∧ Gap g' ∧ Ident name ∧
      body ≠ [] ∧ MembersExact body t ∧
      s = c!"struct" ++ b ++ name ++ g ++ c!"{" ++ g1 ++ t ++ c!"}" ++ g' ++ c!";"
  | .union name body, s => ∃ b g g' t, Blank1 b ∧ Gap g ∧ g ≠ [] ∧ Gap g' ∧ Ident name ∧
      UnionExact body t ∧
      s = c!"union" ++ b ++ name ++ g ++ t ++ g' ++ c!";"

/-- Result and argument types of procedures: `void` or a type. -/
def TypeOrVoidExact : TypeSpecifier → Str → Prop
  | .void, s => s = c!"void"
  | t, s => TypeExact t s

/-- `result NAME(argument) = number;` -/
def ProcedureExact (p : Procedure) (s : Str) : Prop :=
  ∃ t u v b1 b2 b3 b4 b5 b6 b7, TypeOrVoidExact p.res_ty t ∧ TypeOrVoidExact p.req_ty u ∧
    ValueText p.value v ∧ Ident p.method ∧ Blank1 b1 ∧ Blank b2 ∧ Blank b3 ∧ Blank b4 ∧ Blank b5 ∧
    Blank b6 ∧ Blank b7 ∧ (p.req_ty.isKeyword = true → b4 ≠ []) ∧
    ¬ ShortType p.res_ty ∧ (t = c!"unsigned" → ShortWord p.method → b2 = []) ∧
    (ShortType p.req_ty → b4 = []) ∧
    s = t ++ b1 ++ p.method ++ b2 ++ c!"(" ++ b3 ++ u ++ b4 ++ c!")" ++ b5 ++ c!"=" ++ b6 ++ v ++
      b7 ++ c!";"

/-- Procedures, with blanks after each. -/
def ProceduresExact : List Procedure → Str → Prop
  | [], s => s = []
  | p :: ps, s => ∃ t b u, ProcedureExact p t ∧ Blank b ∧ ProceduresExact ps u ∧ s = t ++ b ++ u

/-- `version NAME { procedures } = number;`, at least one procedure. -/
def VersionExact (x : Version) (s : Str) : Prop :=
  ∃ t v b1 b2 b3 b4 b5 b6, x.procedures ≠ [] ∧ ProceduresExact x.procedures t ∧
    ValueText x.value v ∧ Ident x.name ∧ Blank1 b1 ∧ Blank b2 ∧ Blank b3 ∧ Blank b4 ∧ Blank b5 ∧
    Blank b6 ∧
    s = c!"version" ++ b1 ++ x.name ++ b2 ++ c!"{" ++ b3 ++ t ++ c!"}" ++ b4 ++ c!"=" ++ b5 ++ v ++
      b6 ++ c!";"

/-- Versions; nothing may stand between them. -/
def VersionsExact : List Version → Str → Prop
  | [], s => s = []
  | x :: xs, s => ∃ t u, VersionExact x t ∧ VersionsExact xs u ∧ s = t ++ u

/-- `program NAME { versions } = number;`, at least one version. -/
def ProgramExact (x : Program) (s : Str) : Prop :=
  ∃ t v b1 b2 b3 b4 b5 b6 b7, x.versions ≠ [] ∧ VersionsExact x.versions t ∧
    ValueText x.value v ∧ Ident x.name ∧ Blank1 b1 ∧ Blank b2 ∧ Blank b3 ∧ Blank b4 ∧ Blank b5 ∧
    Blank b6 ∧ Blank b7 ∧
    s = c!"program" ++ b1 ++ x.name ++ b2 ++ c!"{" ++ b3 ++ t ++ b4 ++ c!"}" ++ b5 ++ c!"=" ++ b6 ++
      v ++ b7 ++ c!";"

/-- Definitions. A line beginning with `%` is one, with its line end. -/
def DefinitionExact : Definition → Str → Prop
  | .type d, s => TypeDefExact d s
  | .constant a, s => ∃ b g t, Blank1 b ∧ Gap g ∧ AssignText a t ∧
      s = c!"const" ++ b ++ t ++ g ++ c!";"
  | .lineComment, s => ∃ t e, (∀ c ∈ t, c ≠ '\r' ∧ c ≠ '\n') ∧ (e = ['\n'] ∨ e = ['\r', '\n']) ∧
      s = c!"%" ++ t ++ e
  | .program p, s => ProgramExact p s

/-- Definitions, with blanks and comments after each. -/
def DefinitionsExact : List Definition → Str → Prop
  | [], s => s = []
  | d :: ds, s => ∃ t g u, DefinitionExact d t ∧ Gap g ∧ DefinitionsExact ds u ∧ s = t ++ g ++ u

/-- A whole file. Blanks and comments may come first, if a definition follows. -/
def FileExact (ds : List Definition) (s : Str) : Prop :=
  (ds = [] ∧ s = []) ∨ ∃ g t, ds ≠ [] ∧ Gap g ∧ DefinitionsExact ds t ∧ s = g ++ t

/-! ## The trees that have a text

A tree with well-formed names, numbers and lists has a text of the exact language when no declaration
begins with a type name that begins with `void`, and no type name `char` or `short` stands where a
blank must follow it. -/

mutual
/-- Types that have a text. -/
def TypeWritable : TypeSpecifier → Prop
  | .struct body => DeclsWritable body
  | .union body => UnionWritable body
  | _ => True

/-- Declarations that have a text. -/
def DeclWritable : Declaration → Prop
  | .variable ty _ => TypeWritable ty ∧ HeadOk ty ∧ ¬ ShortType ty
  | .fixedArray ty _ _ => TypeWritable ty ∧ HeadOk ty ∧ ¬ ShortType ty
  | .variableArray ty _ _ => TypeWritable ty ∧ HeadOk ty ∧ ¬ ShortType ty
  | .optionVariable ty _ => TypeWritable ty ∧ HeadOk ty
  | _ => True

/-- Members that have a text. -/
def DeclsWritable : List Declaration → Prop
  | [] => True
  | d :: ds => DeclWritable d ∧ DeclsWritable ds

/-- Union bodies that have a text. -/
def UnionWritable : UnionBody → Prop
  | .mk cond specs default => DeclWritable cond ∧ CasesWritable specs ∧ DefaultWritable default

/-- Cases that have a text. -/
def CasesWritable : List CaseSpec → Prop
  | [] => True
  | c :: cs => CaseWritable c ∧ CasesWritable cs

/-- A case that has a text. -/
def CaseWritable : CaseSpec → Prop
  | .mk _ d => DeclWritable d

/-- A default arm that has a text. -/
def DefaultWritable : Option Declaration → Prop
  | none => True
  | some d => DeclWritable d
end

/-- Type definitions that have a text. -/
def TypeDefWritable : TypeDef → Prop
  | .declaration d => DeclWritable d
  | .enum _ _ => True
  | .struct _ body => DeclsWritable body
  | .union _ body => UnionWritable body

/-- Procedures that have a text. -/
def ProcedureWritable (p : Procedure) : Prop :=
  TypeWritable p.res_ty ∧ ¬ ShortType p.res_ty ∧ TypeWritable p.req_ty

/-- Definitions that have a text. -/
def DefinitionWritable : Definition → Prop
  | .type d => TypeDefWritable d
  | .program p => ∀ x ∈ p.versions, ∀ q ∈ x.procedures, ProcedureWritable q
  | _ => True

/-- Files that have a text. -/
def Writable (ds : List Definition) : Prop := ∀ d ∈ ds, DefinitionWritable d

end Xdr.Rpcgen
