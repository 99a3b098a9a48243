import Verif.Model.Types
/-!
# The derive macros of serde-xdr-derive, as programs

`xdr_indexer` and `xdr_union` (`serde-xdr-derive/src/lib.rs`) turn the syntax of an enum into the syntax
of two `impl` blocks. Here they are functions from the syntax of an enum to the variable parts of those
blocks (match arms, bound variables, statements), and the second half of the file says what Rust does
with such code. `Model/Types.lean` contains the result in one step; `Props/Derive.lean` proves that it
is the result.

Simplifications: tokens are trees; a type is already the type it denotes (`Ty`); generics and attributes
of the enum are left out (the macros drop them).
-/

namespace Xdr.Derive

/-- `syn::Fields`. -/
inductive Fields where
  | named (fs : List (String × Ty))
  | unnamed (ts : List Ty)
  | unit

/-- `syn::Variant`. -/
structure Variant where
  ident : String
  fields : Fields

/-- `syn::ItemEnum`. -/
structure ItemEnum where
  ident : String
  variants : List Variant

/-- What the macro is put on: an enum, or a struct or union, which `syn` does not take for an enum. -/
inductive Input where
  | enum (e : ItemEnum)
  | other

/-- `#ident::#variant_ident(#(#ser_args),*) => { #(#ser_stmts);*; }`, `lib.rs` 39-43 and 164-168; without `args`
`#ident::#variant_ident => { }`, 53 and 178. A statement is `ser.serialize_element(#arg_ident)?`. -/
structure SerArm where
  variant : String
  args : Option (List String)
  stmts : List String
deriving DecidableEq

/-- `stringify!(#variant_ident) => { #(#de_stmts);*; Ok(#ident::#variant_ident(#(#de_rets),*)) }`, `lib.rs` 45-50
and 170-175; without `rets` `Ok(#ident::#variant_ident)`, 55 and 180. A statement is
`let #ret_ident = seq.next_element::<#ty>()?.unwrap()`. -/
structure DeArm where
  key : String
  stmts : List (String × Ty)
  variant : String
  rets : Option (List String)

/-- The variable parts of the two `impl` blocks. `lib.rs` 60-112 and 185-235. -/
structure Code where
  ser : List SerArm
  de : List DeArm

/-- The vectors the macros fill for one variant, `lib.rs` 20-23 and 132-135. -/
structure FieldCode where
  serArgs : List String := []
  serStmts : List String := []
  deStmts : List (String × Ty) := []
  deRets : List String := []

/-- `format_ident!("a{}", i)`, `lib.rs` 26 and 139. -/
def argIdent (i : Nat) : String := "a" ++ i.repr

/-- `format_ident!("r{}", i)`, `lib.rs` 27 and 140. -/
def retIdent (i : Nat) : String := "r" ++ i.repr

/-- `for (i, field) in unnamed.unnamed.iter().enumerate()` in `xdr_indexer`, `lib.rs` 25-37. -/
def indexerFields (c : FieldCode) : Nat → List Ty → FieldCode
  | _, [] => c
  | i, ty :: ts => indexerFields {
      serArgs := c.serArgs ++ [argIdent i]
      serStmts := c.serStmts ++ [argIdent i]
      deStmts := c.deStmts ++ [(retIdent i, ty)]
      deRets := c.deRets ++ [retIdent i] } (i + 1) ts

/-- `for variant in ast.variants.iter()` in `xdr_indexer`, `lib.rs` 13-58. -/
def indexerVariants (c : Code) : List Variant → Res Code
  | [] => .ok c
  | v :: vs =>
    match v.fields with
    | .named _ => .panic .unimplemented
    | .unnamed ts =>
      let f := indexerFields {} 0 ts
      indexerVariants {
        ser := c.ser ++ [⟨v.ident, some f.serArgs, f.serStmts⟩]
        de := c.de ++ [⟨v.ident, f.deStmts, v.ident, some f.deRets⟩] } vs
    | .unit =>
      indexerVariants {
        ser := c.ser ++ [⟨v.ident, none, []⟩]
        de := c.de ++ [⟨v.ident, [], v.ident, none⟩] } vs

/-- `xdr_indexer`, `lib.rs` 6-114. A panic of a macro is a compile error. -/
def xdr_indexer : Input → Res Code
  | .other => .panic .unwrapErr
  | .enum e => indexerVariants ⟨[], []⟩ e.variants

/-- `for (i, field) in unnamed.unnamed.iter().enumerate()` in `xdr_union`, `lib.rs` 138-162, with `first` and
`value_ty`. -/
def unionFields (c : FieldCode) (first : Bool) (value_ty : Option Ty) :
    Nat → List Ty → FieldCode × Option Ty
  | _, [] => (c, value_ty)
  | i, ty :: ts =>
    let c := { c with
      serArgs := c.serArgs ++ [argIdent i]
      serStmts := c.serStmts ++ [argIdent i] }
    let c := if first then { c with deRets := c.deRets ++ ["value"] }
      else { c with
        deStmts := c.deStmts ++ [(retIdent i, ty)]
        deRets := c.deRets ++ [retIdent i] }
    let value_ty := if value_ty.isNone then some ty else value_ty
    unionFields c false value_ty (i + 1) ts

/-- `for variant in ast.variants.iter()` in `xdr_union`, `lib.rs` 125-183. -/
def unionVariants (c : Code) (value_ty : Option Ty) : List Variant → Res (Code × Option Ty)
  | [] => .ok (c, value_ty)
  | v :: vs =>
    match v.fields with
    | .named _ => .panic .unimplemented
    | .unnamed ts =>
      let (f, value_ty) := unionFields {} true value_ty 0 ts
      unionVariants {
        ser := c.ser ++ [⟨v.ident, some f.serArgs, f.serStmts⟩]
        de := c.de ++ [⟨v.ident, f.deStmts, v.ident, some f.deRets⟩] } value_ty vs
    | .unit =>
      unionVariants {
        ser := c.ser ++ [⟨v.ident, none, []⟩]
        de := c.de ++ [⟨v.ident, [], v.ident, none⟩] } value_ty vs

/-- `xdr_union`, `lib.rs` 117-237: the code and `value_ty`. -/
def xdr_union : Input → Res (Code × Ty)
  | .other => .panic .unwrapErr
  | .enum e =>
    match unionVariants ⟨[], []⟩ none e.variants with
    | .ok (c, some ty) => .ok (c, ty)
    | .ok (_, none) => .panic .unwrapNone
    | .err x => .err x
    | .panic p => .panic p
    | .depth => .depth

/-! ## What Rust does with the code -/

/-- The value of a variable: the last one bound with that name.
Rust's scoping, in the code of `lib.rs` 39-50 and 164-175. -/
def lookup {α : Type} (x : String) (b : List (String × α)) : Option α :=
  (b.find? fun p => p.1 = x).map (·.2)

/-- The types of the fields of a variant. `syn::Fields`, `lib.rs` 15 and 127. -/
def Fields.types : Fields → List Ty
  | .named fs => fs.map (·.2)
  | .unnamed ts => ts
  | .unit => []

/-- Match the fields of a value against the arguments of a pattern.
Rust's patterns, in the code of `lib.rs` 39-43 and 164-168. -/
def bindArgs : List String → List Ty → List Val → Option (List (String × Ty × Val))
  | [], [], [] => some []
  | a :: as, t :: ts, v :: vs => (bindArgs as ts vs).map ((a, t, v) :: ·)
  | _, _, _ => none

/-- Statements `ser.serialize_element(x)?`: the calls made. `none` if rustc rejects them. -/
def serStmts (env : Env) (b : List (String × Ty × Val)) : List String → Option (List SVal)
  | [] => some []
  | x :: xs =>
    match lookup x b with
    | none => none
    | some (t, v) =>
      match present env t v, serStmts env b xs with
      | some s, some ss => some (s :: ss)
      | _, _ => none

/-- `match self { #(#ser_match_arms),*, _ => unimplemented!() }`, `lib.rs` 71-74 and 194-197, on the `i`-th
variant of the enum with fields `vs`. `none` if there is no such value. -/
def serMatch (env : Env) (e : ItemEnum) (c : Code) (i : Nat) (vs : List Val) : Option (List SVal) :=
  match e.variants[i]? with
  | none => none
  | some v =>
    match c.ser.find? fun arm => arm.variant = v.ident with
    | none => some [.panic .unimplemented]
    | some arm =>
      match bindArgs (arm.args.getD []) v.fields.types vs with
      | none => none
      | some b => serStmts env b arm.stmts

/-- The `Serialize` impl of `xdr_indexer`, `lib.rs` 61-78. -/
def indexerSerialize (env : Env) (e : ItemEnum) (c : Code) (impl : IndexerImpl) (i : Nat)
    (vs : List Val) : Option SVal :=
  (serMatch env e c i vs).map fun ss =>
    .ofUser (impl.index i vs) fun index => .tuple (i32AsUsize index) (.i32 index :: ss)

/-- The `Serialize` impl of `xdr_union`, `lib.rs` 187-201. -/
def unionSerialize (env : Env) (e : ItemEnum) (c : Code) (i : Nat) (vs : List Val) : Option SVal :=
  (serMatch env e c i vs).map (.tuple 2)

/-- Statements `let x = seq.next_element::<T>()?.unwrap()`. `lib.rs` 33-35 and 151-153. -/
def deStmts (field : Ty → De Val) : List (String × Ty) → Seq → List (String × Val) →
    De (List (String × Val))
  | [], _, b => pure b
  | (x, t) :: ls, seq, b => do
    let (o, seq') ← seq.next_element (field t)
    match o with
    | none => M.panic .unwrapNone
    | some v => deStmts field ls seq' ((x, v) :: b)

/-- The values of variables. Rust's expressions, in the code of `lib.rs` 45-50 and 170-175. -/
def values (b : List (String × Val)) : List String → Option (List Val)
  | [] => some []
  | x :: xs =>
    match lookup x b, values b xs with
    | some v, some vs => some (v :: vs)
    | _, _ => none

/-- `match variant { #(#de_match_arms),*, _ => unimplemented!() }`, `lib.rs` 101-104 and 224-227. -/
def deMatch (field : Ty → De Val) (e : ItemEnum) (c : Code) (name : String) (seq : Seq)
    (b : List (String × Val)) : De Val :=
  match c.de.find? fun arm => arm.key = name with
  | none => M.panic .unimplemented
  | some arm => do
    let b ← deStmts field arm.stmts seq b
    match e.variants.findIdx? fun v => v.ident = arm.variant, values b (arm.rets.getD []) with
    | some i, some vs => pure (.variant i vs)
    | _, _ => M.panic .illTyped

/-- `XdrIndexerVisitor::visit_seq`, `lib.rs` 94-105. -/
def indexerVisit (field : Ty → De Val) (e : ItemEnum) (c : Code) (impl : IndexerImpl) (seq : Seq) :
    De Val := do
  let (o, seq) ← seq.next_element (deserialize_i32 pure)
  match o with
  | none => M.panic .unwrapNone
  | some index =>
    match impl.name_by_index index with
    | .err _ => M.fail (.custom s!"Can not convert from {index.toInt}")
    | .panic p => M.panic p
    | .depth => M.depth
    | .ok name => deMatch field e c name seq []

/-- The `Deserialize` impl of `xdr_indexer`, `lib.rs` 80-110. -/
def indexerDeserialize (field : Ty → De Val) (e : ItemEnum) (c : Code) (impl : IndexerImpl) : De Val :=
  deserialize_tuple 10 (indexerVisit field e c impl)

/-- `XdrUnionVisitor::visit_seq`, `lib.rs` 217-228. -/
def unionVisit (field : Ty → De Val) (e : ItemEnum) (c : Code) (value_ty : Ty) (impl : UnionImpl)
    (seq : Seq) : De Val := do
  let (o, seq) ← seq.next_element (field value_ty)
  match o with
  | none => M.panic .unwrapNone
  | some value =>
    match impl.name_by_value value with
    | .err _ => M.fail (.custom "Can not convert from value")
    | .panic p => M.panic p
    | .depth => M.depth
    | .ok name => deMatch field e c name seq [("value", value)]

/-- The `Deserialize` impl of `xdr_union`, `lib.rs` 203-233. -/
def unionDeserialize (field : Ty → De Val) (e : ItemEnum) (c : Code) (value_ty : Ty)
    (impl : UnionImpl) : De Val :=
  deserialize_tuple 10 (unionVisit field e c value_ty impl)

end Xdr.Derive
