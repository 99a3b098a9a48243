import Verif.Rpcgen.Rust
import Verif.Rpcgen.Keyword
/-!
# The generator, `rpcgen/src/gen_code.rs`

Function by function. Two recursions need a bound: resolving names (`resolve_name`) and expanding
typedefs (`convert_type_token`); both take it as a number and answer `depth` when it is used up (in
Rust, the stack overflows).
-/

namespace Xdr.Rpcgen

/-- `Config`, `gen_code.rs` 10-17. -/
structure Config where
  remove_typedef : Bool := false
  enum_impl_indexer : Bool := false
  enum_impl_std_trait : Bool := false
  union_impl_indexer : Bool := false
  union_impl_union : Bool := false
deriving DecidableEq, Repr, Inhabited

/-- `gen_code.rs` 20-22. -/
def Config.enum_complement_index (c : Config) : Bool := !c.enum_impl_indexer && !c.enum_impl_std_trait

/-- `gen_code.rs` 24-26. -/
def Config.union_complement_index (c : Config) : Bool := !c.union_impl_indexer && !c.union_impl_union

/-- `Context`, `gen_code.rs` 29-33. -/
structure Context where
  config : Config
  constants : List (Str × Value)
  typedefs : List (Str × TypeDef)

/-- `is_enum_type`, `gen_code.rs` 44-53. -/
def Context.is_enum_type (cxt : Context) (ty : TypeSpecifier) : Bool :=
  match ty with
  | .identifier name => cxt.typedefs.any fun (_, d) =>
    match d with
    | .enum identifier _ => name == identifier
    | _ => false
  | _ => false

/-- The member of an enum with that name, and its value: the inner loop of `gen_code.rs` 74-81. -/
def enumMember (name : Str) : TypeDef → Option Value
  | .enum _ assigns => (assigns.find? fun a => a.identifier == name).map (·.value)
  | _ => none

/-- `resolve_value`, `gen_code.rs` 94-103 (and the same match in `resolve_const_value`, 64-67); `rn` is
`resolve_name`. -/
def resolveValueWith (rn : Str → GR Int) (t : IntTy) : Value → GR Int
  | .constant c => c.value t
  | .identifier name => rn name

/-- The end of `resolve_const_value` (`gen_code.rs` 63-67) and of `resolve_enum_value` (77-83): the value
found, or an error. -/
def resolveFound (rn : Str → GR Int) (t : IntTy) (name : Str) : Option Value → GR Int
  | none => .err (.notFound name)
  | some value => resolveValueWith rn t value

/-- `resolve_name`, `gen_code.rs` 86-92: `resolve_const_value` (55-68), and if that fails
`resolve_enum_value` (70-84). -/
def Context.resolve_name (cxt : Context) (t : IntTy) : Nat → Str → GR Int
  | 0, _ => .depth
  | n + 1, name =>
    GR.orElse
      (resolveFound (cxt.resolve_name t n) t name
        ((cxt.constants.find? fun c => c.1 == name).map (·.2)))
      (resolveFound (cxt.resolve_name t n) t name
        (cxt.typedefs.findSome? fun d => enumMember name d.2))

/-- `resolve_value`, `gen_code.rs` 94-103. -/
def Context.resolve_value (cxt : Context) (t : IntTy) (n : Nat) (v : Value) : GR Int :=
  resolveValueWith (cxt.resolve_name t n) t v

/-- `setup_context`, `gen_code.rs` 152-181. -/
def setup_context (definitions : List Definition) (config : Config) : Context where
  config := config
  constants := definitions.filterMap fun d =>
    match d with
    | .constant a => some (a.identifier, a.value)
    | _ => none
  typedefs := definitions.filterMap fun d =>
    match d with
    | .type td =>
      match td with
      | .declaration decl => decl.name.map fun name => (name, td)
      | .enum name _ => some (name, td)
      | .struct name _ => some (name, td)
      | .union name _ => some (name, td)
    | _ => none

/-- `convert_value_token`, `gen_code.rs` 701-719. -/
def convert_value_token (t : IntTy) (value : Value) (cnv : Bool) : GR Tok :=
  match value with
  | .constant c => (c.value t).bind fun v => .ok (.lit t v)
  | .identifier i =>
    (if cnv then upper_camel_case_ident i else mkIdent i).bind fun v => .ok (.ident v)

/-- `constants_token`, `gen_code.rs` 183-201. -/
def constants_token (cxt : Context) : GR (List ConstItem) :=
  GR.mapM (fun (name, value) =>
    (mkIdent name).bind fun name_ident =>
      match convert_value_token .u32 value false with
      | .ok v => .ok ⟨name_ident, .u32, v⟩
      | .err _ => (convert_value_token .u64 value false).bind fun v => .ok ⟨name_ident, .u64, v⟩
      | .panic p => .panic p
      | .depth => .depth) cxt.constants

/-- `resolve_type_token`, `gen_code.rs` 881-896; `ct` is `convert_type_token`. -/
def resolve_type_token (ct : Declaration → GR (Option (RTy × OpaqueType))) (cxt : Context)
    (value : Str) : GR (RTy × OpaqueType) :=
  if !cxt.config.remove_typedef then
    (upper_camel_case_ident value).bind fun name => .ok (.path name, .none)
  else
    match cxt.typedefs.find? fun d => d.1 == value with
    | some (_, .declaration declaration) =>
      (ct declaration).bind fun o => GR.okOr o .notSupported
    | _ => (upper_camel_case_ident value).bind fun name => .ok (.path name, .none)

/-- `convert_primitive_token`, `gen_code.rs` 763-801; `ct` is `convert_type_token`. -/
def convert_primitive_token (ct : Declaration → GR (Option (RTy × OpaqueType))) (cxt : Context) :
    TypeSpecifier → GR (RTy × OpaqueType)
  | .int signed => .ok (if signed then .i32 else .u32, .none)
  | .hyper signed => .ok (if signed then .i64 else .u64, .none)
  | .float => .ok (.f32, .none)
  | .double => .ok (.f64, .none)
  | .quadruple => .err .notSupported
  | .bool => .ok (.bool, .none)
  | .enum _ => .err .notSupported
  | .struct _ => .err .notSupported
  | .union _ => .err .notSupported
  | .identifier id => resolve_type_token ct cxt id
  | .char signed => .ok (if signed then .i8 else .u8, .none)
  | .short signed => .ok (if signed then .i16 else .u16, .none)
  | .void => .panic .unimplemented

/-- The body of `convert_type_token`, `gen_code.rs` 721-761; `ct` is `convert_type_token` for the
declarations of typedefs. -/
def convertTypeWith (ct : Declaration → GR (Option (RTy × OpaqueType))) (cxt : Context) :
    Declaration → GR (Option (RTy × OpaqueType))
  | .variable ts _ => (convert_primitive_token ct cxt ts).bind fun p => .ok (some p)
  | .fixedArray ts _ value =>
    (convert_primitive_token ct cxt ts).bind fun (ty, opaque_) =>
      (convert_value_token .usize value false).bind fun len =>
        .ok (some (.array ty len false, opaque_))
  | .variableArray ts _ _ =>
    (convert_primitive_token ct cxt ts).bind fun (ty, opaque_) =>
      if opaque_ = .variable then .ok (some (.vec .variableArray, .none))
      else .ok (some (.vec ty, opaque_))
  | .opaqueFixedArray _ value =>
    (convert_value_token .usize value false).bind fun len =>
      .ok (some (.array .u8 len true, .fixed))
  | .opaqueVariableArray _ _ => .ok (some (.vec .u8, .variable))
  | .string _ _ => .ok (some (.string, .none))
  | .optionVariable ts _ =>
    (convert_primitive_token ct cxt ts).bind fun (ty, opaque_) => .ok (some (.option ty, opaque_))
  | .void => .ok none

/-- `convert_type_token`, `gen_code.rs` 721-761, with a bound on chains of typedefs. -/
def convert_type_token (cxt : Context) : Nat → Declaration → GR (Option (RTy × OpaqueType))
  | 0, _ => .depth
  | n + 1, d => convertTypeWith (convert_type_token cxt n) cxt d

/-- A stable sort by key: `slice::sort_by_key`, `gen_code.rs` 244 and 454. -/
def insertByKey {α : Type} (x : Int × α) : List (Int × α) → List (Int × α)
  | [] => [x]
  | y :: ys => if x.1 < y.1 then x :: y :: ys else y :: insertByKey x ys

/-- Elements are inserted from the left, each after those with the same key.
`slice::sort_by_key` (std, stable), `gen_code.rs` 244 and 454. -/
def sortByKey {α : Type} (l : List (Int × α)) : List (Int × α) :=
  l.foldl (fun acc x => insertByKey x acc) []

/-- Decimal digits of a number, with fuel for its length (std's `to_string`, `gen_code.rs` 260 and 461). -/
def digitsFuel : Nat → Nat → Str
  | 0, _ => []
  | f + 1, n =>
    if n < 10 then [Char.ofNat (48 + n)] else digitsFuel f (n / 10) ++ [Char.ofNat (48 + n % 10)]

/-- `to_string` of an integer, `gen_code.rs` 260 and 461. -/
def intToString (i : Int) : Str :=
  if i < 0 then '-' :: digitsFuel (i.natAbs + 1) i.natAbs else digitsFuel (i.natAbs + 1) i.natAbs

/-- The range `a..b`, `gen_code.rs` 258 and 459. -/
def intRange (a b : Int) : List Int := (List.range (b - a).toNat).map fun (k : Nat) => a + (k : Int)

/-- `format_ident!("_Reserved{}", index.to_string())`, `gen_code.rs` 260 and 461. -/
def reservedIdent (index : Int) : GR RIdent := mkIdent (c!"_Reserved" ++ intToString index)

/-- The members of an enum with their numbers, `gen_code.rs` 238-242. -/
def enumIndexed (cxt : Context) (n : Nat) (assigns : List Assign) : GR (List (Int × Assign)) :=
  GR.mapM (fun a => (cxt.resolve_value .i32 n a.value).bind fun index => .ok (index, a)) assigns

/-- What the loop over the members pushes, `gen_code.rs` 255-288: for each member the reserved variants
before it, its name and its number. `start` is the loop variable of the same name. -/
def enumLoop (complement : Bool) :
    List (Int × Assign) → Int → GR (List (List (RIdent × Int) × RIdent × Int))
  | [], _ => .ok []
  | (end_, assign) :: rest, start =>
    (if complement then
        GR.mapM (fun index => (reservedIdent index).bind fun r => .ok (r, index)) (intRange start end_)
      else .ok []).bind fun reserved =>
    (upper_camel_case_ident assign.identifier).bind fun item_ident =>
    if IntTy.i32.max < end_ + 1 then .panic .overflow
    else (enumLoop complement rest (end_ + 1)).bind fun steps =>
      .ok ((reserved, item_ident, end_) :: steps)

/-- `convert_enum_token`, `gen_code.rs` 237-376. -/
def convert_enum_token (cxt : Context) (n : Nat) (name : Str) (assigns : List Assign) :
    GR EnumItem :=
  (enumIndexed cxt n assigns).bind fun indexed =>
  (upper_camel_case_ident name).bind fun name_ident =>
  (enumLoop cxt.config.enum_complement_index (sortByKey indexed) 0).bind fun steps =>
  match steps with
  | [] => .panic .unwrapNone
  | (_, default_value, _) :: _ =>
    .ok {
      name := name_ident
      deriveIndexer := cxt.config.enum_impl_indexer
      variants := steps.flatMap fun (r, i, v) => r ++ [(i, v)]
      default := default_value
      asRef := if cxt.config.enum_impl_std_trait then some (steps.map fun (_, i, v) => (i, v)) else none
      tryFrom := if cxt.config.enum_impl_std_trait then some (steps.map fun (_, i, v) => (v, i)) else none
      indexer :=
        if cxt.config.enum_impl_indexer then some {
          byIndex := steps.map fun (_, i, v) => (v, i)
          otherwise := default_value
          index := steps.map fun (_, i, v) => (i, v) }
        else none }

/-- Whether a type specifier is the given name: the comparison of `gen_code.rs` 410. -/
def TypeSpecifier.isName (name : Str) : TypeSpecifier → Bool
  | .identifier n => n == name
  | _ => false

/-- The name of a field, `gen_code.rs` 404-408. -/
def fieldIdent (field_name : Str) : GR RIdent :=
  snake_case_ident (if rust_reserved field_name then c!"r#" ++ field_name else field_name)

/-- The loop body of `convert_struct_token`, `gen_code.rs` 386-417. -/
def convertField (cxt : Context) (n : Nat) (name : Str) (declaration : Declaration) :
    GR (Attr × RIdent × RTy) :=
  match declaration.name, declaration.type_specifier with
  | some field_name, some ts =>
    (convert_type_token cxt n declaration).bind fun o =>
    (GR.okOr o .notSupported).bind fun (ty, opaque_) =>
    let attr : Attr :=
      match opaque_ with
      | .fixed => .fixed
      | .variable => .variable
      | .none => if cxt.config.enum_impl_std_trait && cxt.is_enum_type ts then .signed32 else .none
    (fieldIdent field_name).bind fun field_name_ident =>
    .ok (attr, field_name_ident, if ts.isName name then .box ty else ty)
  | _, _ => .panic .unwrapNone

/-- `convert_struct_token`, `gen_code.rs` 378-428. -/
def convert_struct_token (cxt : Context) (n : Nat) (name : Str) (declarations : List Declaration) :
    GR StructItem :=
  (GR.mapM (convertField cxt n name) declarations).bind fun fields =>
  (upper_camel_case_ident name).bind fun name_ident =>
  .ok ⟨name_ident, fields⟩

/-- What `convert_case_token` returns, `gen_code.rs` 808-817. -/
structure CaseTok where
  /-- the variant's name -/
  variant : Tok
  /-- whether its pattern in `index` has a field -/
  arm : Bool
  value : Variant
  default : Tok × Nat
  cond : RTy

/-- The condition type of `convert_case_token`, `gen_code.rs` 819-829. -/
def condType (cxt : Context) (n : Nat) (cond_type_spec : TypeSpecifier) : GR RTy :=
  match convert_primitive_token (convert_type_token cxt n) cxt cond_type_spec with
  | .ok p => .ok p.1
  | .err _ =>
    match cond_type_spec with
    | .identifier c => (upper_camel_case_ident c).bind fun ident => .ok (.path ident)
    | _ => .panic .unimplemented
  | .panic p => .panic p
  | .depth => .depth

/-- `convert_case_token`, `gen_code.rs` 803-879. -/
def convert_case_token (cxt : Context) (n : Nat) (value : Value) (declaration : Declaration)
    (cond_type_spec : TypeSpecifier) : GR CaseTok :=
  (convert_value_token .u32 value true).bind fun value =>
  (condType cxt n cond_type_spec).bind fun cond_type =>
  (convert_type_token cxt n declaration).bind fun decl =>
  match decl with
  | some (v_ty, opaque_) =>
    let wrap : Bool := opaque_ != .none && !cxt.config.union_complement_index
    let v_ty : RTy := if wrap then .variableArray else v_ty
    let attr : Attr :=
      if wrap then .none
      else
        match opaque_ with
        | .fixed => .fixed
        | .variable => .variable
        | .none => .none
    if cxt.config.union_impl_union then
      .ok ⟨value, true, ⟨attr, value, [cond_type, v_ty]⟩, (value, 2), cond_type⟩
    else .ok ⟨value, true, ⟨attr, value, [v_ty]⟩, (value, 1), cond_type⟩
  | none =>
    if cxt.config.union_impl_union then
      .ok ⟨value, false, ⟨.none, value, [cond_type]⟩, (value, 1), cond_type⟩
    else .ok ⟨value, false, ⟨.none, value, []⟩, (value, 0), cond_type⟩

/-- `eindex as i32` for a `u32`, `gen_code.rs` 475. -/
def asI32 (v : Int) : Int := if v ≤ 2147483647 then v else v - 4294967296

/-- What one case pushes, `gen_code.rs` 468-502: variants, an arm of `name_by_index`, one of `index`, at most one of
`name_by_value`, its default value and the condition type. -/
structure CaseStep where
  variants : List Variant
  byIndex : Int × Tok
  index : Tok × Bool × Int
  byValue : List (Pat × Tok)
  default : Tok × Nat
  cond : RTy

/-- All case labels with their numbers and arms, `gen_code.rs` 447-453. -/
def unionIndexed (cxt : Context) (n : Nat) (specs : List CaseSpec) :
    GR (List (Int × Declaration × Value)) :=
  GR.mapM (fun (decl, value) => (cxt.resolve_value .u32 n value).bind fun index =>
      .ok (index, decl, value))
    (specs.flatMap fun spec => spec.values.map fun v => (spec.declaration, v))

/-- The arm of `name_by_value` of a case, `gen_code.rs` 484-498. -/
def caseByValue (cxt : Context) (cond_type : TypeSpecifier) (eindex : Int) (value : Value)
    (variant : Tok) : GR (List (Pat × Tok)) :=
  if cxt.is_enum_type cond_type then
    match cond_type with
    | .identifier c =>
      (upper_camel_case_ident c).bind fun cond_type_ident =>
        match value with
        | .identifier v => (upper_camel_case_ident v).bind fun value_ident =>
            .ok [(.path cond_type_ident value_ident, variant)]
        | .constant _ => .ok []
    | _ => .ok []
  else .ok [(.lit eindex, variant)]

/-- The loop over the cases of a union on an integer or a name, `gen_code.rs` 457-504. `sindex` is the
loop variable of the same name. -/
def unionLoop (cxt : Context) (n : Nat) (cond_type : TypeSpecifier) :
    List (Int × Declaration × Value) → Int → GR (List CaseStep)
  | [], _ => .ok []
  | (eindex, decl, value_token) :: rest, sindex =>
    (if cxt.config.union_complement_index then
        GR.mapM (fun index => (reservedIdent index).bind fun r => .ok ⟨.none, .ident r, []⟩)
          (intRange sindex eindex)
      else .ok []).bind fun reserved =>
    (convert_case_token cxt n value_token decl cond_type).bind fun c =>
    (caseByValue cxt cond_type eindex value_token c.variant).bind fun byValue =>
    if IntTy.u32.max < eindex + 1 then .panic .overflow
    else
      (unionLoop cxt n cond_type rest (eindex + 1)).bind fun steps =>
        .ok (⟨reserved ++ [c.value], (asI32 eindex, c.variant), (c.variant, c.arm, asI32 eindex),
          byValue, c.default, c.cond⟩ :: steps)

/-- One half of a union on `bool`, `gen_code.rs` 506-540 and 542-576: the first case with that label.
`none`: there is no such case. -/
def boolCase (cxt : Context) (n : Nat) (cond_type : TypeSpecifier) (specs : List CaseSpec)
    (label : Value → Bool) (b : Bool) : GR (Option CaseStep) :=
  match specs.find? fun s => s.values.any label with
  | none => .ok none
  | some case_ =>
    match case_.values.find? label with
    | none => .panic .unwrapNone
    | some value =>
      (convert_case_token cxt n value case_.declaration cond_type).bind fun c =>
      .ok (some ⟨[c.value], (if b then 1 else 0, c.variant), (c.variant, c.arm, if b then 1 else 0),
        [(.bool b, c.variant)], c.default, .bool⟩)

/-- A reserved variant without a case, `gen_code.rs` 534-540 and 570-576. -/
def boolReserved (cxt : Context) (name : Str) : List Variant :=
  if cxt.config.union_complement_index then [⟨.none, .ident ⟨false, name⟩, []⟩] else []

/-- What `gen_code.rs` 439-581 collect: the steps of a union, before the default arm: variants, arms, default value, condition type. -/
structure UnionAcc where
  variants : List Variant
  byIndex : List (Int × Tok)
  index : List (Tok × Bool × Int)
  byValue : List (Pat × Tok)
  default : Option (Tok × Nat)
  cond : Option RTy

/-- The vectors after the loop, `gen_code.rs` 457-504: the first default value and the last condition
type stay. -/
def UnionAcc.ofSteps (steps : List CaseStep) : UnionAcc where
  variants := steps.flatMap (·.variants)
  byIndex := steps.map (·.byIndex)
  index := steps.map (·.index)
  byValue := steps.flatMap (·.byValue)
  default := (steps.head?).map (·.default)
  cond := (steps.getLast?).map (·.cond)

/-- The cases of a union, `gen_code.rs` 439-581. -/
def unionCases (cxt : Context) (n : Nat) (body : UnionBody) : GR (TypeSpecifier × UnionAcc) :=
  match body.cond with
  | .variable cond_type _ =>
    match cond_type with
    | .int _ | .identifier _ =>
      (unionIndexed cxt n body.specs).bind fun values =>
      (unionLoop cxt n cond_type (sortByKey values) 0).bind fun steps =>
      .ok (cond_type, UnionAcc.ofSteps steps)
    | .bool =>
      (boolCase cxt n cond_type body.specs Value.is_false false).bind fun f =>
      (boolCase cxt n cond_type body.specs Value.is_true true).bind fun t =>
      .ok (cond_type, {
        variants := (match f with
            | some s => s.variants
            | none => boolReserved cxt c!"_Reserved0") ++
          (match t with
            | some s => s.variants
            | none => boolReserved cxt c!"_Reserved1")
        byIndex := (f.toList ++ t.toList).map (·.byIndex)
        index := (f.toList ++ t.toList).map (·.index)
        byValue := (f.toList ++ t.toList).flatMap (·.byValue)
        default := (f.or t).map (·.default)
        cond := some .bool })
    | _ => .err .notSupported
  | _ => .err .notSupported

/-- The name of the default arm, `gen_code.rs` 587-606. -/
def defaultTok : Tok := .ident ⟨false, c!"Default"⟩

/-- The default arm, `gen_code.rs` 583-611. (Without any case there is no condition type, and `use-union`
would write `Default(, ty)`; the parser returns no such union.) -/
def unionDefault (cxt : Context) (n : Nat) (cond : Option RTy) :
    Option Declaration → GR (Option (Variant × (Tok × Nat)))
  | none => .ok none
  | some default =>
    (convert_type_token cxt n default).bind fun o =>
      let fields := (if cxt.config.union_impl_union then cond.toList else []) ++
        (match o with
          | some (v_ty, _) => [v_ty]
          | none => [])
      let count := (if cxt.config.union_impl_union then 1 else 0) +
        (match o with
          | some _ => 1
          | none => 0)
      .ok (some (⟨.none, defaultTok, fields⟩, (defaultTok, count)))

/-- `convert_union_token`, `gen_code.rs` 430-699. -/
def convert_union_token (cxt : Context) (n : Nat) (name : Str) (body : UnionBody) : GR UnionItem :=
  (upper_camel_case_ident name).bind fun name_ident =>
  (unionCases cxt n body).bind fun (cond_type, acc) =>
  (unionDefault cxt n acc.cond body.default).bind fun dflt =>
  match (dflt.map (·.2)).or acc.default with
  | none => .panic .unwrapNone
  | some default_value =>
    .ok {
      name := name_ident
      derive := if cxt.config.union_impl_indexer then .indexer
        else if cxt.config.union_impl_union then .union else .serde
      variants := acc.variants ++ (dflt.map (·.1)).toList
      default := default_value
      indexer := if cxt.config.union_impl_indexer then some {
          byIndex := acc.byIndex
          otherwise := body.default.isSome
          index := acc.index
          indexOtherwise := body.default.isSome }
        else none
      union := if cxt.config.union_impl_union then some {
          cond := acc.cond
          byValue := acc.byValue
          otherwise := match cond_type with
            | .bool => .none
            | _ => if body.default.isSome then .default else .err }
        else none }

/-- The loop body of `types_token`, `gen_code.rs` 206-232. -/
def typeToken (cxt : Context) (n : Nat) (name : Str) : TypeDef → GR (List Item)
  | .declaration declaration =>
    if cxt.config.remove_typedef then .ok []
    else
      (convert_type_token cxt n declaration).bind fun o =>
      (GR.okOr o .notSupported).bind fun (value, opaque_) =>
      if opaque_ ≠ .none then .err .notSupported
      else (upper_camel_case_ident name).bind fun name_ident => .ok [.alias name_ident value]
  | .enum _ assigns => (convert_enum_token cxt n name assigns).bind fun e => .ok [.enum e]
  | .struct _ declarations => (convert_struct_token cxt n name declarations).bind fun s => .ok [.struct s]
  | .union _ body => (convert_union_token cxt n name body).bind fun u => .ok [.union u]

/-- `types_token`, `gen_code.rs` 203-235. -/
def types_token (cxt : Context) (n : Nat) : GR (List Item) :=
  (GR.mapM (fun (name, d) => typeToken cxt n name d) cxt.typedefs).bind fun l => .ok l.flatten

/-- `gen_code`, `gen_code.rs` 113-150, with a bound on chains of names. -/
def gen_code (n : Nat) (definitions : List Definition) (config : Config) : GR RustFile :=
  let cxt := setup_context definitions config
  (constants_token cxt).bind fun constants =>
  (types_token cxt n).bind fun types =>
  .ok {
    useTuple := config.enum_impl_indexer || config.union_impl_indexer || config.union_impl_union
    useIndexer := config.enum_impl_indexer || config.union_impl_indexer
    useUnion := config.union_impl_union
    constants := constants
    types := types }

end Xdr.Rpcgen
