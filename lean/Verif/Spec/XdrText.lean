import Verif.Rpcgen.Ast
/-!
# The texts of the XDR language

Which texts stand for which syntax trees, written from RFC 4506 section 6 (with the extensions named
in `/repo/README.md`: `char`, `short`, bare `unsigned`, `program`, `%` lines), and not from the parser.
`..Text x s`: the text `s` is a text of `x`.

Blanks and comments may stand where the tool allows them; where they may not stand, the grammar below
has no `Gap` or `Blank`.
-/

namespace Xdr.Rpcgen

/-- Spaces, tabs and line ends. -/
def Blank (s : Str) : Prop := ∀ c ∈ s, c = ' ' ∨ c = '\t' ∨ c = '\r' ∨ c = '\n'

/-- At least one of them. -/
def Blank1 (s : Str) : Prop := Blank s ∧ s ≠ []

/-- Blanks and `/* .. */` comments; the comment ends at the first `*/`. -/
inductive Gap : Str → Prop
  | blank {s : Str} : Blank s → Gap s
  | comment {s body rest : Str} : Blank s → ¬ c!"*/" <:+: body → Gap rest →
      Gap (s ++ c!"/*" ++ body ++ c!"*/" ++ rest)

/-- RFC 4506 section 6.4, note 1, and the two words of the rpc language. -/
def reservedWords : List Str := [
  c!"bool", c!"case", c!"const", c!"default", c!"double", c!"quadruple", c!"enum", c!"float",
  c!"hyper", c!"int", c!"opaque", c!"string", c!"struct", c!"switch", c!"typedef", c!"union",
  c!"unsigned", c!"void", c!"program", c!"version"]

/-- A letter or underscore, then letters, digits and underscores; not a reserved word. (RFC 4506
section 6.2; the RFC does not allow a leading underscore.) -/
def Ident (s : Str) : Prop :=
  (∃ c cs, s = c :: cs ∧ (isAlpha c = true ∨ c = '_') ∧ ∀ x ∈ cs, isWord x = true) ∧
  s ∉ reservedWords

/-- Hexadecimal digits. -/
def IsHexDigit (c : Char) : Prop :=
  isDigit c = true ∨ (65 ≤ c.toNat ∧ c.toNat ≤ 70) ∨ (97 ≤ c.toNat ∧ c.toNat ≤ 102)

/-- Octal digits. -/
def IsOctDigit (c : Char) : Prop := 48 ≤ c.toNat ∧ c.toNat ≤ 55

/-- Numbers: zero, a decimal number with no leading zero and an optional minus sign, `0x` and
hexadecimal digits, or `0` and octal digits. -/
def ConstantText : Constant → Str → Prop
  | .decimal d, s => s = d ∧ (d = c!"0" ∨ ∃ c ds, (d = c :: ds ∨ d = '-' :: c :: ds) ∧
      isDigit c = true ∧ c ≠ '0' ∧ ∀ x ∈ ds, isDigit x = true)
  | .hex d, s => s = c!"0x" ++ d ∧ d ≠ [] ∧ ∀ x ∈ d, IsHexDigit x
  | .octal d, s => s = c!"0" ++ d ∧ d ≠ [] ∧ ∀ x ∈ d, IsOctDigit x

/-- A number or a name. -/
def ValueText : Value → Str → Prop
  | .constant c, s => ConstantText c s
  | .identifier name, s => s = name ∧ Ident name

/-- A number, a name, or nothing. -/
def OptValueText : Option Value → Str → Prop
  | some v, s => ValueText v s
  | none, s => s = []

/-- `name = value`. -/
def AssignText (a : Assign) (s : Str) : Prop :=
  ∃ g1 g2 v, Ident a.identifier ∧ Gap g1 ∧ Gap g2 ∧ ValueText a.value v ∧
    s = a.identifier ++ g1 ++ c!"=" ++ g2 ++ v

/-- `, name = value` any number of times. -/
def AssignsText : List Assign → Str → Prop
  | [], s => s = []
  | a :: as, s => ∃ g1 g2 t u, Gap g1 ∧ Gap g2 ∧ AssignText a t ∧ AssignsText as u ∧
      s = g1 ++ c!"," ++ g2 ++ t ++ u

/-- `{ a = 1, b = 2 }`, at least one member. -/
def EnumText : List Assign → Str → Prop
  | [], _ => False
  | a :: as, s => ∃ g1 g2 t u, Gap g1 ∧ Gap g2 ∧ AssignText a t ∧ AssignsText as u ∧
      s = c!"{" ++ g1 ++ t ++ u ++ g2 ++ c!"}"

/-- The types that are written with one or two keywords; a blank must follow them. -/
def TypeSpecifier.isKeyword : TypeSpecifier → Bool
  | .int _ | .hyper _ | .float | .double | .quadruple | .bool | .char _ | .short _ => true
  | _ => false

/-- `case v:` any number of times. -/
def LabelsText : List Value → Str → Prop
  | [], s => s = []
  | v :: vs, s => ∃ g1 g2 g3 t u, Gap g1 ∧ Gap g2 ∧ Gap g3 ∧ ValueText v t ∧ LabelsText vs u ∧
      s = c!"case" ++ g1 ++ t ++ g2 ++ c!":" ++ g3 ++ u

mutual
/-- Type specifiers. -/
def TypeText : TypeSpecifier → Str → Prop
  | .int true, s => s = c!"int"
  | .int false, s => s = c!"unsigned" ∨ ∃ b, Blank1 b ∧ s = c!"unsigned" ++ b ++ c!"int"
  | .hyper true, s => s = c!"hyper"
  | .hyper false, s => ∃ b, Blank1 b ∧ s = c!"unsigned" ++ b ++ c!"hyper"
  | .char true, s => s = c!"char"
  | .char false, s => ∃ b, Blank1 b ∧ s = c!"unsigned" ++ b ++ c!"char"
  | .short true, s => s = c!"short"
  | .short false, s => ∃ b, Blank1 b ∧ s = c!"unsigned" ++ b ++ c!"short"
  | .float, s => s = c!"float"
  | .double, s => s = c!"double"
  | .quadruple, s => s = c!"quadruple"
  | .bool, s => s = c!"bool"
  | .enum body, s => ∃ b t, Blank1 b ∧ EnumText body t ∧ s = c!"enum" ++ b ++ t
  | .struct body, s => ∃ b g t, Blank1 b ∧ Gap g ∧ body ≠ [] ∧ MembersText body t ∧
      s = c!"struct" ++ b ++ c!"{" ++ g ++ t ++ c!"}"
  | .union body, s => ∃ b t, Blank1 b ∧ UnionText body t ∧ s = c!"union" ++ b ++ t
  | .identifier name, s => s = name ∧ Ident name
  | .void, _ => False

/-- Declarations. -/
def DeclText : Declaration → Str → Prop
  | .void, s => s = c!"void"
  | .opaqueFixedArray name len, s => ∃ b v, Blank1 b ∧ Ident name ∧ ValueText len v ∧
      s = c!"opaque" ++ b ++ name ++ c!"[" ++ v ++ c!"]"
  | .opaqueVariableArray name max, s => ∃ b v, Blank1 b ∧ Ident name ∧ OptValueText max v ∧
      s = c!"opaque" ++ b ++ name ++ c!"<" ++ v ++ c!">"
  | .string name max, s => ∃ b v, Blank1 b ∧ Ident name ∧ OptValueText max v ∧
      s = c!"string" ++ b ++ name ++ c!"<" ++ v ++ c!">"
  | .fixedArray ty name len, s => ∃ t b v, TypeText ty t ∧ Blank1 b ∧ Ident name ∧
      ValueText len v ∧ s = t ++ b ++ name ++ c!"[" ++ v ++ c!"]"
  | .variableArray ty name max, s => ∃ t b v, TypeText ty t ∧ Blank1 b ∧ Ident name ∧
      OptValueText max v ∧ s = t ++ b ++ name ++ c!"<" ++ v ++ c!">"
  | .optionVariable ty name, s => ∃ t b b', TypeText ty t ∧ Blank b ∧
      (ty.isKeyword = true → b ≠ []) ∧ Blank b' ∧ Ident name ∧ s = t ++ b ++ c!"*" ++ b' ++ name
  | .variable ty name, s => ∃ t b, TypeText ty t ∧ Blank1 b ∧ Ident name ∧ s = t ++ b ++ name

/-- Members of a structure, each ended by a semicolon. -/
def MembersText : List Declaration → Str → Prop
  | [], s => s = []
  | d :: ds, s => ∃ t g1 g2 u, DeclText d t ∧ Gap g1 ∧ Gap g2 ∧ MembersText ds u ∧
      s = t ++ g1 ++ c!";" ++ g2 ++ u

/-- `switch (..) { cases default }`, at least one case. -/
def UnionText : UnionBody → Str → Prop
  | .mk cond specs default, s => ∃ g1 g2 g3 g4 g5 t u w,
      Gap g1 ∧ Gap g2 ∧ Gap g3 ∧ Gap g4 ∧ Gap g5 ∧
      DeclText cond t ∧ specs ≠ [] ∧ CasesText specs u ∧ DefaultText default w ∧
      s = c!"switch" ++ g1 ++ c!"(" ++ g2 ++ t ++ g3 ++ c!")" ++ g4 ++ c!"{" ++ g5 ++
        u ++ w ++ c!"}"

/-- The cases of a union. -/
def CasesText : List CaseSpec → Str → Prop
  | [], s => s = []
  | c :: cs, s => ∃ t g u, CaseText c t ∧ Gap g ∧ CasesText cs u ∧ s = t ++ g ++ u

/-- A case: at least one label, and a declaration. -/
def CaseText : CaseSpec → Str → Prop
  | .mk values d, s => ∃ t u g, values ≠ [] ∧ LabelsText values t ∧ DeclText d u ∧ Gap g ∧
      s = t ++ u ++ g ++ c!";"

/-- The default arm, if any. -/
def DefaultText : Option Declaration → Str → Prop
  | none, s => s = []
  | some d, s => ∃ g1 g2 g3 g4 t, Gap g1 ∧ Gap g2 ∧ Gap g3 ∧ Gap g4 ∧ DeclText d t ∧
      s = c!"default" ++ g1 ++ c!":" ++ g2 ++ t ++ g3 ++ c!";" ++ g4
end

/-- Type definitions. -/
def TypeDefText : TypeDef → Str → Prop
  | .declaration d, s => ∃ b g t, Blank1 b ∧ Gap g ∧ DeclText d t ∧
      s = c!"typedef" ++ b ++ t ++ g ++ c!";"
  | .enum name body, s => ∃ b g g' t, Blank1 b ∧ Gap g ∧ Gap g' ∧ Ident name ∧ EnumText body t ∧
      s = c!"enum" ++ b ++ name ++ g ++ t ++ g' ++ c!";"
  | .struct name body, s => ∃ b g g1 g' t, Blank1 b ∧ Gap g ∧ Gap g1 ∧ Gap g' ∧ Ident name ∧
      body ≠ [] ∧ MembersText body t ∧
      s = c!"struct" ++ b ++ name ++ g ++ c!"{" ++ g1 ++ t ++ c!"}" ++ g' ++ c!";"
  | .union name body, s => ∃ b g g' t, Blank1 b ∧ Gap g ∧ g ≠ [] ∧ Gap g' ∧ Ident name ∧
      UnionText body t ∧
      s = c!"union" ++ b ++ name ++ g ++ t ++ g' ++ c!";"

/-- Result and argument types of procedures: `void` or a type. -/
def TypeOrVoidText : TypeSpecifier → Str → Prop
  | .void, s => s = c!"void"
  | t, s => TypeText t s

/-- `result NAME(argument) = number;` -/
def ProcedureText (p : Procedure) (s : Str) : Prop :=
  ∃ t u v b1 b2 b3 b4 b5 b6 b7, TypeOrVoidText p.res_ty t ∧ TypeOrVoidText p.req_ty u ∧
    ValueText p.value v ∧ Ident p.method ∧ Blank1 b1 ∧ Blank b2 ∧ Blank b3 ∧ Blank b4 ∧ Blank b5 ∧
    Blank b6 ∧ Blank b7 ∧ (p.req_ty.isKeyword = true → b4 ≠ []) ∧
    s = t ++ b1 ++ p.method ++ b2 ++ c!"(" ++ b3 ++ u ++ b4 ++ c!")" ++ b5 ++ c!"=" ++ b6 ++ v ++
      b7 ++ c!";"

/-- Procedures, with blanks after each. -/
def ProceduresText : List Procedure → Str → Prop
  | [], s => s = []
  | p :: ps, s => ∃ t b u, ProcedureText p t ∧ Blank b ∧ ProceduresText ps u ∧ s = t ++ b ++ u

/-- `version NAME { procedures } = number;`, at least one procedure. -/
def VersionText (x : Version) (s : Str) : Prop :=
  ∃ t v b1 b2 b3 b4 b5 b6, x.procedures ≠ [] ∧ ProceduresText x.procedures t ∧
    ValueText x.value v ∧ Ident x.name ∧ Blank1 b1 ∧ Blank b2 ∧ Blank b3 ∧ Blank b4 ∧ Blank b5 ∧
    Blank b6 ∧
    s = c!"version" ++ b1 ++ x.name ++ b2 ++ c!"{" ++ b3 ++ t ++ c!"}" ++ b4 ++ c!"=" ++ b5 ++ v ++
      b6 ++ c!";"

/-- Versions; nothing may stand between them. -/
def VersionsText : List Version → Str → Prop
  | [], s => s = []
  | x :: xs, s => ∃ t u, VersionText x t ∧ VersionsText xs u ∧ s = t ++ u

/-- `program NAME { versions } = number;`, at least one version. -/
def ProgramText (x : Program) (s : Str) : Prop :=
  ∃ t v b1 b2 b3 b4 b5 b6 b7, x.versions ≠ [] ∧ VersionsText x.versions t ∧
    ValueText x.value v ∧ Ident x.name ∧ Blank1 b1 ∧ Blank b2 ∧ Blank b3 ∧ Blank b4 ∧ Blank b5 ∧
    Blank b6 ∧ Blank b7 ∧
    s = c!"program" ++ b1 ++ x.name ++ b2 ++ c!"{" ++ b3 ++ t ++ b4 ++ c!"}" ++ b5 ++ c!"=" ++ b6 ++
      v ++ b7 ++ c!";"

/-- Definitions. A line beginning with `%` is one, with its line end. -/
def DefinitionText : Definition → Str → Prop
  | .type d, s => TypeDefText d s
  | .constant a, s => ∃ b g t, Blank1 b ∧ Gap g ∧ AssignText a t ∧
      s = c!"const" ++ b ++ t ++ g ++ c!";"
  | .lineComment, s => ∃ t e, (∀ c ∈ t, c ≠ '\r' ∧ c ≠ '\n') ∧ (e = ['\n'] ∨ e = ['\r', '\n']) ∧
      s = c!"%" ++ t ++ e
  | .program p, s => ProgramText p s

/-- Definitions, with blanks and comments after each. -/
def DefinitionsText : List Definition → Str → Prop
  | [], s => s = []
  | d :: ds, s => ∃ t g u, DefinitionText d t ∧ Gap g ∧ DefinitionsText ds u ∧ s = t ++ g ++ u

/-- A whole file. Blanks and comments may come first, if a definition follows. -/
def FileText (ds : List Definition) (s : Str) : Prop :=
  (ds = [] ∧ s = []) ∨ ∃ g t, ds ≠ [] ∧ Gap g ∧ DefinitionsText ds t ∧ s = g ++ t

/-! ## Trees without the ambiguous words

`char` and `short` are keywords of the tool but not reserved, and `void` is taken for a declaration
wherever its four letters begin one. -/

/-- The name of a type may stand at the head of a declaration. -/
def HeadOk : TypeSpecifier → Prop
  | .identifier name => ¬ c!"void" <+: name
  | _ => True

/-- The name may follow the type: `unsigned char` is a type. -/
def NameOk : TypeSpecifier → Str → Prop
  | .int false, name => name ≠ c!"char" ∧ name ≠ c!"short"
  | _, _ => True

mutual
/-- Types free of the ambiguous words. -/
def TypeReadable : TypeSpecifier → Prop
  | .identifier name => name ≠ c!"char" ∧ name ≠ c!"short"
  | .struct body => DeclsReadable body
  | .union body => UnionReadable body
  | _ => True

/-- Declarations free of the ambiguous words. -/
def DeclReadable : Declaration → Prop
  | .variable ty name => TypeReadable ty ∧ HeadOk ty ∧ NameOk ty name
  | .fixedArray ty name _ => TypeReadable ty ∧ HeadOk ty ∧ NameOk ty name
  | .variableArray ty name _ => TypeReadable ty ∧ HeadOk ty ∧ NameOk ty name
  | .optionVariable ty _ => TypeReadable ty ∧ HeadOk ty
  | _ => True

/-- Members free of the ambiguous words. -/
def DeclsReadable : List Declaration → Prop
  | [] => True
  | d :: ds => DeclReadable d ∧ DeclsReadable ds

/-- Union bodies free of the ambiguous words. -/
def UnionReadable : UnionBody → Prop
  | .mk cond specs default => DeclReadable cond ∧ CasesReadable specs ∧ DefaultReadable default

/-- Cases free of the ambiguous words. -/
def CasesReadable : List CaseSpec → Prop
  | [] => True
  | c :: cs => CaseReadable c ∧ CasesReadable cs

/-- A case free of the ambiguous words. -/
def CaseReadable : CaseSpec → Prop
  | .mk _ d => DeclReadable d

/-- A default arm free of the ambiguous words. -/
def DefaultReadable : Option Declaration → Prop
  | none => True
  | some d => DeclReadable d
end

/-- Type definitions free of the ambiguous words. -/
def TypeDefReadable : TypeDef → Prop
  | .declaration d => DeclReadable d
  | .enum _ _ => True
  | .struct _ body => DeclsReadable body
  | .union _ body => UnionReadable body

/-- Procedures free of the ambiguous words. -/
def ProcedureReadable (p : Procedure) : Prop :=
  TypeReadable p.res_ty ∧ NameOk p.res_ty p.method ∧ TypeReadable p.req_ty

/-- Definitions free of the ambiguous words. -/
def DefinitionReadable : Definition → Prop
  | .type d => TypeDefReadable d
  | .program p => ∀ x ∈ p.versions, ∀ q ∈ x.procedures, ProcedureReadable q
  | _ => True

/-- Files free of the ambiguous words. -/
def Readable (ds : List Definition) : Prop := ∀ d ∈ ds, DefinitionReadable d

end Xdr.Rpcgen
