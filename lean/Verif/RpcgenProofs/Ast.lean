import Verif.Spec.RustTokens
import Verif.Spec.RustMeaning
import Verif.Rpcgen.Meaning
/-!
# Syntax trees of the templates
-/

namespace Xdr.Rpcgen

/-- A path of fixed words. -/
def wordsPath (global : Bool) (segs : List Str) : RPath := ⟨global, segs.map nameOf⟩

def intOperand (t : IntTy) (v : Int) : ROperand :=
  .int (decide (v < 0)) (intToString (v.natAbs : Int) ++ t.suffix)

def Tok.operand : Tok → ROperand
  | .lit t v => intOperand t v
  | .ident i => .path ⟨false, [i]⟩

def RTy.ast : RTy → RType
  | .i8 => tyPath [c!"i8"]
  | .i16 => tyPath [c!"i16"]
  | .i32 => tyPath [c!"i32"]
  | .i64 => tyPath [c!"i64"]
  | .u8 => tyPath [c!"u8"]
  | .u16 => tyPath [c!"u16"]
  | .u32 => tyPath [c!"u32"]
  | .u64 => tyPath [c!"u64"]
  | .f32 => tyPath [c!"f32"]
  | .f64 => tyPath [c!"f64"]
  | .bool => tyPath [c!"bool"]
  | .string => tyPath [c!"String"]
  | .path i => tyNamed i
  | .array t len cast =>
    .array t.ast (if cast then .cast len.operand (wordsPath false [c!"usize"]) else len.operand)
  | .vec t => .app (tyPath [c!"Vec"]) t.ast
  | .option t => .app (tyPath [c!"Option"]) t.ast
  | .box t => .app (tyPath [c!"Box"]) t.ast
  | .variableArray => tyPath [c!"serde_xdr", c!"opaque", c!"VariableArray"]

def Attr.ast : Attr → List RAttr
  | .none => []
  | .fixed => [.serdeWith c!"\"serde_xdr::opaque::fixed\""]
  | .variable => [.serdeWith c!"\"serde_xdr::opaque::variable\""]
  | .signed32 => [.serdeWith c!"\"serde_xdr::primitive::signed32\""]

def errorTy (global : Bool) : RType := .path (wordsPath global [c!"serde_xdr", c!"error", c!"Error"])

def intExpr (v : Int) : RExpr := .operand (intOperand .i32 v)

def okStringifyAst (body : List Lexeme) : RExpr :=
  .call (wordsPath false [c!"Ok"]) [.macroCall (wordsPath false [c!"stringify"]) body]

def errExpr (global : Bool) : RExpr :=
  .call (wordsPath false [c!"Err"])
    [.operand (.path (wordsPath global [c!"serde_xdr", c!"error", c!"Error", c!"Convert"]))]

def intPat (t : IntTy) (v : Int) : RPattern := .int (decide (v < 0)) (intToString (v.natAbs : Int) ++ t.suffix)

def matchWord (s : Str) (arms : List (RPattern × RExpr)) : RExpr :=
  .matchOn (.path (wordsPath false [s])) arms

def implDefaultAst (name : RIdent) (e : RExpr) : RItem :=
  .impl (tyPath [c!"Default"]) (tyNamed name) [.fn (nameOf c!"default") [] (tyPath [c!"Self"]) e]

def ConstItem.ast (c : ConstItem) : RItem :=
  .const true c.name (tyPath [c.ty.suffix]) (.operand c.value.operand)

def asRefAst (name : RIdent) (arms : List (RIdent × Int)) : RItem :=
  .impl (.app (tyPath [c!"AsRef"]) (tyPath [c!"i32"])) (tyNamed name)
    [.fn (nameOf c!"as_ref") [.refSelf] (.ref (some c!"static") (tyPath [c!"i32"]))
      (matchWord c!"self" (arms.map fun a => (.path ⟨false, [name, a.1]⟩, .ref (intExpr a.2))))]

def tryFromAst (name : RIdent) (arms : List (Int × RIdent)) : RItem :=
  .impl (.app (tyPath [c!"TryFrom"]) (tyPath [c!"i32"])) (tyNamed name)
    [.assoc (nameOf c!"Error") (errorTy false),
     .fn (nameOf c!"try_from") [.typed (nameOf c!"v") (tyPath [c!"i32"])]
      (.app (.app (tyPath [c!"Result"]) (tyPath [c!"Self"])) (errorTy false))
      (matchWord c!"v" (arms.map (fun a => (intPat .i32 a.1,
          RExpr.call (wordsPath false [c!"Ok"]) [.operand (.path ⟨false, [name, a.2]⟩)])) ++
        [(.wild, errExpr false)]))]

def identLex (i : RIdent) : Lexeme := .ident i.raw i.name

def EnumIndexer.ast (name : RIdent) (ix : EnumIndexer) : RItem :=
  .impl (tyPath [c!"XdrIndexer"]) (tyNamed name)
    [.assoc (nameOf c!"Error") (errorTy true),
     .fn (nameOf c!"name_by_index") [.typed (nameOf c!"index") (tyPath [c!"i32"])] nameResultTy
      (matchWord c!"index" (ix.byIndex.map (fun a => (intPat .i32 a.1, okStringifyAst [identLex a.2])) ++
        [(.wild, okStringifyAst [identLex ix.otherwise])])),
     .fn (nameOf c!"index") [.refSelf] (tyPath [c!"i32"])
      (matchWord c!"self" (ix.index.map fun a => (.path ⟨false, [name, a.1]⟩, intExpr a.2)))]

def enumDerives (indexer : Bool) : List Str :=
  if indexer then [c!"Clone", c!"Debug", c!"PartialEq", c!"XdrIndexer"]
  else [c!"Clone", c!"Debug", c!"Deserialize", c!"PartialEq", c!"Serialize"]

def EnumItem.ast (e : EnumItem) : List RItem :=
  [.enum [.derive ((enumDerives e.deriveIndexer).map nameOf), .repr (nameOf c!"i32")] true e.name
      (e.variants.map fun v => ⟨[], v.1, none, some (intOperand .i32 v.2)⟩),
    implDefaultAst e.name (.operand (.path ⟨false, [e.name, e.default]⟩))] ++
  (e.asRef.map (asRefAst e.name)).toList ++ (e.tryFrom.map (tryFromAst e.name)).toList ++
  (e.indexer.map (EnumIndexer.ast e.name)).toList

def structDerives : List Str := [c!"Clone", c!"Debug", c!"Default", c!"Deserialize", c!"Serialize"]

def StructItem.ast (s : StructItem) : List RItem :=
  [.struct [.derive (structDerives.map nameOf)] true s.name
    (s.fields.map fun f => ⟨f.1.ast, true, f.2.1, f.2.2.ast⟩)]

/-- The name of a variant that is one. -/
def Tok.id : Tok → RIdent
  | .ident i => i
  | .lit _ _ => ⟨false, []⟩

def Variant.ast (v : Variant) : RVariant :=
  ⟨v.attr.ast, v.name.id, if v.fields.isEmpty then none else some (v.fields.map RTy.ast), none⟩

def unionDefaultAst (name : RIdent) (d : Tok × Nat) : RExpr :=
  if d.2 = 0 then .operand (.path ⟨false, [name, d.1.id]⟩)
  else .call ⟨false, [name, d.1.id]⟩
    (List.replicate d.2 (.call (wordsPath false [c!"Default", c!"default"]) []))

def UnionIndexer.ast (name : RIdent) (ix : UnionIndexer) : RItem :=
  .impl (tyPath [c!"XdrIndexer"]) (tyNamed name)
    [.assoc (nameOf c!"Error") (errorTy true),
     .fn (nameOf c!"name_by_index") [.typed (nameOf c!"index") (tyPath [c!"i32"])] nameResultTy
      (matchWord c!"index" (ix.byIndex.map (fun a => (intPat .i32 a.1, okStringifyAst [identLex a.2.id])) ++
        [(.wild, if ix.otherwise then okStringifyAst [key c!"Default"] else errExpr true)])),
     .fn (nameOf c!"index") [.refSelf] (tyPath [c!"i32"])
      (matchWord c!"self" (ix.index.map (fun a =>
          ((if a.2.1 then .tuple ⟨false, [name, a.1.id]⟩ [.wild] else .path ⟨false, [name, a.1.id]⟩ : RPattern),
            intExpr a.2.2)) ++
        (if ix.indexOtherwise then [(.wild, RExpr.macroCall (wordsPath false [c!"unimplemented"]) [])] else [])))]

def Pat.ast : Pat → RPattern
  | .path c v => .path ⟨false, [c, v]⟩
  | .lit v => intPat .u32 v
  | .bool b => .bool b

def UnionUnion.ast (name : RIdent) (cond : RTy) (un : UnionUnion) : RItem :=
  .impl (.app (tyPath [c!"XdrUnion"]) cond.ast) (tyNamed name)
    [.assoc (nameOf c!"Error") (errorTy true),
     .fn (nameOf c!"name_by_value") [.typed (nameOf c!"value") (.ref none cond.ast)] nameResultTy
      (matchWord c!"value" (un.byValue.map (fun a => (a.1.ast, okStringifyAst [identLex a.2.id])) ++
        (match un.otherwise with
          | .none => []
          | .default => [(.wild, okStringifyAst [key c!"Default"])]
          | .err => [(.wild, errExpr true)])))]

def unionDerives : UnionDerive → List Str
  | .indexer => [c!"Clone", c!"Debug", c!"XdrIndexer"]
  | .union => [c!"Clone", c!"Debug", c!"XdrUnion"]
  | .serde => [c!"Clone", c!"Debug", c!"Deserialize", c!"Serialize"]

def UnionItem.ast (u : UnionItem) : List RItem :=
  [.enum [.derive ((unionDerives u.derive).map nameOf)] true u.name (u.variants.map Variant.ast),
    implDefaultAst u.name (unionDefaultAst u.name u.default)] ++
  (u.indexer.map (UnionIndexer.ast u.name)).toList ++
  (u.union.bind fun un => un.cond.map fun c => un.ast u.name c).toList

def Item.ast : Item → List RItem
  | .alias name ty => [.alias false name ty.ast]
  | .enum e => e.ast
  | .struct s => s.ast
  | .union u => u.ast

def useAst (segs : List Str) : RItem := .use [segs.map nameOf]

def RustFile.ast (f : RustFile) : List RItem :=
  [.use [[nameOf c!"serde", nameOf c!"Deserialize"], [nameOf c!"serde", nameOf c!"Serialize"]]] ++
  (if f.useTuple then [useAst [c!"serde", c!"ser", c!"SerializeTuple"]] else []) ++
  (if f.useIndexer then [useAst [c!"serde_xdr", c!"XdrIndexer"], useAst [c!"serde_xdr_derive", c!"XdrIndexer"]]
    else []) ++
  (if f.useUnion then [useAst [c!"serde_xdr", c!"XdrUnion"], useAst [c!"serde_xdr_derive", c!"XdrUnion"]]
    else []) ++
  f.constants.map ConstItem.ast ++ f.types.flatMap Item.ast

end Xdr.Rpcgen
