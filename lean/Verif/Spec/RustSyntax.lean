import Verif.Spec.RustLex
import Verif.Rpcgen.Names
/-!
# Syntax of Rust files

A part of the grammar of the Rust reference: `use`, `const`, `type`, `enum`, `struct` and `impl Trait for`
items; paths, references, arrays and generic types; literals, paths, calls, macro calls, references, `as` and
`match`. What is outside of it is no file here. Not in it though Rust has it: `>>` closing two lists of
arguments, blocks with statements, operators, visibility other than `pub`, methods with other receivers than
`&self`.
-/

namespace Xdr.Rpcgen

/-! ## Syntax trees -/

structure RPath where
  /-- begins with `::` -/
  global : Bool
  segs : List RIdent
deriving DecidableEq, Repr, Inhabited

inductive ROperand where
  /-- an integer literal as written -/
  | int (neg : Bool) (s : Str)
  | path (p : RPath)
  | cast (o : ROperand) (ty : RPath)
deriving DecidableEq, Repr, Inhabited

inductive RType where
  | path (p : RPath)
  /-- `F<A, B>` is `app (app F A) B` -/
  | app (f arg : RType)
  | ref (lifetime : Option Str) (t : RType)
  | array (t : RType) (len : ROperand)
deriving DecidableEq, Repr, Inhabited

inductive RPattern where
  | wild
  | int (neg : Bool) (s : Str)
  | bool (b : Bool)
  | path (p : RPath)
  | tuple (p : RPath) (args : List RPattern)
deriving Inhabited

inductive RExpr where
  | operand (o : ROperand)
  | ref (e : RExpr)
  | call (f : RPath) (args : List RExpr)
  | macroCall (f : RPath) (body : List Lexeme)
  | matchOn (o : ROperand) (arms : List (RPattern × RExpr))
deriving Inhabited

inductive RAttr where
  | derive (names : List RIdent)
  | repr (name : RIdent)
  /-- `#[serde(with = "..")]` -/
  | serdeWith (s : Str)
deriving DecidableEq, Repr, Inhabited

structure RField where
  attrs : List RAttr
  visible : Bool
  name : RIdent
  ty : RType

structure RVariant where
  attrs : List RAttr
  name : RIdent
  /-- `none`: no parentheses -/
  fields : Option (List RType)
  discriminant : Option ROperand

inductive RParam where
  | refSelf
  | typed (name : RIdent) (ty : RType)

inductive RMember where
  | assoc (name : RIdent) (ty : RType)
  | fn (name : RIdent) (params : List RParam) (ret : RType) (body : RExpr)

inductive RItem where
  /-- all paths it imports -/
  | use (paths : List (List RIdent))
  | const (visible : Bool) (name : RIdent) (ty : RType) (value : RExpr)
  | «alias» (visible : Bool) (name : RIdent) (ty : RType)
  | enum (attrs : List RAttr) (visible : Bool) (name : RIdent) (variants : List RVariant)
  | struct (attrs : List RAttr) (visible : Bool) (name : RIdent) (fields : List RField)
  | impl (trait : RType) (self : RType) (members : List RMember)

/-! ## Words -/

/-- Keywords, strict and reserved. -/
def rustKeywords : List Str :=
  [c!"as", c!"break", c!"const", c!"continue", c!"crate", c!"else", c!"enum", c!"extern", c!"false", c!"fn",
   c!"for", c!"if", c!"impl", c!"in", c!"let", c!"loop", c!"match", c!"mod", c!"move", c!"mut", c!"pub", c!"ref",
   c!"return", c!"self", c!"Self", c!"static", c!"struct", c!"super", c!"trait", c!"true", c!"type", c!"unsafe",
   c!"use", c!"where", c!"while", c!"async", c!"await", c!"dyn",
   c!"abstract", c!"become", c!"box", c!"do", c!"final", c!"macro", c!"override", c!"priv", c!"typeof",
   c!"unsized", c!"virtual", c!"yield", c!"try", c!"gen"]

abbrev Toks := List Lexeme

/-- A word as written. -/
def key (s : Str) : Lexeme := .ident false s

/-- An identifier. -/
def plainIdent : Lexeme → Option RIdent
  | .ident raw s => if raw = true ∨ (s ∉ rustKeywords ∧ s ≠ c!"_") then some ⟨raw, s⟩ else none
  | _ => none

/-- A segment of a path. -/
def segIdent (l : Lexeme) : Option RIdent :=
  if l ∈ [key c!"self", key c!"Self", key c!"super", key c!"crate"] then
    match l with
    | .ident _ s => some ⟨false, s⟩
    | _ => none
  else plainIdent l

/-- This token next. -/
def expect (l : Lexeme) : Toks → Option Toks
  | x :: xs => if x = l then some xs else none
  | [] => none

/-- An identifier next. -/
def pIdent : Toks → Option (RIdent × Toks)
  | l :: ts => (plainIdent l).map fun i => (i, ts)
  | [] => none

/-- `a::b::c` -/
def pSegs : Toks → Option (List RIdent × Toks)
  | [] => none
  | l :: ts =>
    match segIdent l with
    | none => none
    | some i =>
      match ts with
      | .sym s :: ts' =>
        if s = c!"::" then
          match pSegs ts' with
          | some (is, r) => some (i :: is, r)
          | none => none
        else some ([i], ts)
      | _ => some ([i], ts)

/-- A path without arguments. -/
def pPath (ts : Toks) : Option (RPath × Toks) :=
  if ts.head? = some (.sym c!"::") then (pSegs ts.tail).map fun p => (⟨true, p.1⟩, p.2)
  else (pSegs ts).map fun p => (⟨false, p.1⟩, p.2)

/-- Identifiers with commas between them, up to a closing delimiter. -/
def pIdents (close : Str) : Nat → Toks → Option (List RIdent × Toks)
  | 0, _ => none
  | n + 1, ts =>
    if ts.head? = some (.sym close) then some ([], ts.tail)
    else (pIdent ts).bind fun p =>
      if p.2.head? = some (.sym c!",") then (pIdents close n p.2.tail).map fun q => (p.1 :: q.1, q.2)
      else if p.2.head? = some (.sym close) then some ([p.1], p.2.tail)
      else none

/-! ## Expressions and types -/

/-- Whether a literal is a number. -/
def isNumber : Str → Bool
  | c :: _ => isDigit c
  | [] => false

/-- A number or a path. -/
def pOperand : Toks → Option (ROperand × Toks)
  | .literal s :: ts => if isNumber s then some (.int false s, ts) else none
  | ts =>
    if ts.head? = some (.sym c!"-") then
      match ts.tail with
      | .literal s :: ts' => if isNumber s then some (.int true s, ts') else none
      | _ => none
    else (pPath ts).map fun p => (.path p.1, p.2)

/-- `as ty`, if it is there. -/
def pCast (e : ROperand) (ts : Toks) : Option (ROperand × Toks) :=
  if ts.head? = some (key c!"as") then (pPath ts.tail).map fun p => (.cast e p.1, p.2) else some (e, ts)

/-- The length of an array. -/
def pLen (ts : Toks) : Option (ROperand × Toks) := (pOperand ts).bind fun p => pCast p.1 p.2

mutual

/-- A type. -/
def pType : Nat → Toks → Option (RType × Toks)
  | 0, _ => none
  | n + 1, ts =>
    if ts.head? = some (.sym c!"&") then
      match ts.tail with
      | .lifetime l :: ts' => (pType n ts').map fun p => (.ref (some l) p.1, p.2)
      | ts' => (pType n ts').map fun p => (.ref none p.1, p.2)
    else if ts.head? = some (.sym c!"[") then
      (pType n ts.tail).bind fun p => (expect (.sym c!";") p.2).bind fun r => (pLen r).bind fun q =>
        (expect (.sym c!"]") q.2).map fun r => (.array p.1 q.1, r)
    else
      (pPath ts).bind fun p =>
        if p.2.head? = some (.sym c!"<") then
          (pTypes c!">" n p.2.tail).map fun q => (q.1.foldl .app (.path p.1), q.2)
        else some (.path p.1, p.2)

/-- Types with commas between them, up to a closing delimiter. -/
def pTypes (close : Str) : Nat → Toks → Option (List RType × Toks)
  | 0, _ => none
  | n + 1, ts =>
    if ts.head? = some (.sym close) then some ([], ts.tail)
    else (pType n ts).bind fun p =>
      if p.2.head? = some (.sym c!",") then (pTypes close n p.2.tail).map fun q => (p.1 :: q.1, q.2)
      else if p.2.head? = some (.sym close) then some ([p.1], p.2.tail)
      else none

end

mutual

/-- A pattern. A name alone would be a variable and is left out. -/
def pPat : Nat → Toks → Option (RPattern × Toks)
  | 0, _ => none
  | n + 1, ts =>
    if ts.head? = some (key c!"_") then some (.wild, ts.tail)
    else if ts.head? = some (key c!"true") then some (.bool true, ts.tail)
    else if ts.head? = some (key c!"false") then some (.bool false, ts.tail)
    else
      (pOperand ts).bind fun p =>
        match p.1 with
        | .int neg s => some (.int neg s, p.2)
        | .path q =>
          if q.segs.length < 2 then none
          else if p.2.head? = some (.sym c!"(") then (pPats n p.2.tail).map fun r => (.tuple q r.1, r.2)
          else some (.path q, p.2)
        | _ => none

/-- Patterns with commas between them, up to `)`. -/
def pPats : Nat → Toks → Option (List RPattern × Toks)
  | 0, _ => none
  | n + 1, ts =>
    if ts.head? = some (.sym c!")") then some ([], ts.tail)
    else (pPat n ts).bind fun p =>
      if p.2.head? = some (.sym c!",") then (pPats n p.2.tail).map fun q => (p.1 :: q.1, q.2)
      else if p.2.head? = some (.sym c!")") then some ([p.1], p.2.tail)
      else none

end

/-- The arguments of a macro: no delimiters in it, up to `)`. -/
def pBody : Toks → Option (List Lexeme × Toks)
  | [] => none
  | l :: ts =>
    if l = .sym c!")" then some ([], ts)
    else if l ∈ [.sym c!"(", .sym c!"[", .sym c!"]", .sym c!"{", .sym c!"}"] then none
    else (pBody ts).map fun p => (l :: p.1, p.2)

mutual

/-- An expression. -/
def pExpr : Nat → Toks → Option (RExpr × Toks)
  | 0, _ => none
  | n + 1, ts =>
    if ts.head? = some (.sym c!"&") then (pExpr n ts.tail).map fun p => (.ref p.1, p.2)
    else if ts.head? = some (key c!"match") then
      (pOperand ts.tail).bind fun p => (expect (.sym c!"{") p.2).bind fun r =>
        (pArms n r).map fun q => (.matchOn p.1 q.1, q.2)
    else
      (pOperand ts).bind fun p =>
        match p.1 with
        | .path q =>
          if p.2.head? = some (.sym c!"!") then
            (expect (.sym c!"(") p.2.tail).bind fun r => (pBody r).map fun b => (.macroCall q b.1, b.2)
          else if p.2.head? = some (.sym c!"(") then (pArgs n p.2.tail).map fun r => (.call q r.1, r.2)
          else (pCast p.1 p.2).map fun r => (.operand r.1, r.2)
        | _ => (pCast p.1 p.2).map fun r => (.operand r.1, r.2)

/-- Arguments of a call, up to `)`. -/
def pArgs : Nat → Toks → Option (List RExpr × Toks)
  | 0, _ => none
  | n + 1, ts =>
    if ts.head? = some (.sym c!")") then some ([], ts.tail)
    else (pExpr n ts).bind fun p =>
      if p.2.head? = some (.sym c!",") then (pArgs n p.2.tail).map fun q => (p.1 :: q.1, q.2)
      else if p.2.head? = some (.sym c!")") then some ([p.1], p.2.tail)
      else none

/-- The arms of a `match`, up to `}`. -/
def pArms : Nat → Toks → Option (List (RPattern × RExpr) × Toks)
  | 0, _ => none
  | n + 1, ts =>
    if ts.head? = some (.sym c!"}") then some ([], ts.tail)
    else (pPat n ts).bind fun p => (expect (.sym c!"=>") p.2).bind fun r => (pExpr n r).bind fun e =>
      if e.2.head? = some (.sym c!",") then (pArms n e.2.tail).map fun q => ((p.1, e.1) :: q.1, q.2)
      else if e.2.head? = some (.sym c!"}") then some ([(p.1, e.1)], e.2.tail)
      else none

end

/-! ## Items -/

/-- An attribute after `#`. -/
def pAttr (n : Nat) (ts : Toks) : Option (RAttr × Toks) :=
  (expect (.sym c!"[") ts).bind fun ts =>
    if ts.head? = some (key c!"derive") then
      (expect (.sym c!"(") ts.tail).bind fun r => (pIdents c!")" n r).bind fun p =>
        (expect (.sym c!"]") p.2).map fun r => (.derive p.1, r)
    else if ts.head? = some (key c!"repr") then
      (expect (.sym c!"(") ts.tail).bind fun r => (pIdent r).bind fun p =>
        (expect (.sym c!")") p.2).bind fun r => (expect (.sym c!"]") r).map fun r => (.repr p.1, r)
    else if ts.head? = some (key c!"serde") then
      (expect (.sym c!"(") ts.tail).bind fun r => (expect (key c!"with") r).bind fun r =>
        (expect (.sym c!"=") r).bind fun r =>
          match r with
          | .literal s :: r =>
            (expect (.sym c!")") r).bind fun r => (expect (.sym c!"]") r).map fun r => (.serdeWith s, r)
          | _ => none
    else none

/-- Attributes, if there are any. -/
def pAttrs : Nat → Toks → Option (List RAttr × Toks)
  | 0, _ => none
  | n + 1, ts =>
    if ts.head? = some (.sym c!"#") then
      (pAttr n ts.tail).bind fun p => (pAttrs n p.2).map fun q => (p.1 :: q.1, q.2)
    else some ([], ts)

/-- `pub`, if it is there. -/
def pPub (ts : Toks) : Bool × Toks :=
  if ts.head? = some (key c!"pub") then (true, ts.tail) else (false, ts)

/-- The paths of a `use`, up to `;`. -/
def pUse : Toks → Option (List (List RIdent) × Toks)
  | [] => none
  | l :: ts =>
    if l = .sym c!"{" then
      (pIdents c!"}" (ts.length + 1) ts).bind fun p =>
        (expect (.sym c!";") p.2).map fun r => (p.1.map fun i => [i], r)
    else
      match segIdent l with
      | none => none
      | some i =>
        match ts with
        | .sym s :: ts' =>
          if s = c!"::" then (pUse ts').map fun p => (p.1.map fun is => i :: is, p.2)
          else if s = c!";" then some ([[i]], ts')
          else none
        | _ => none

/-- The fields of a struct, up to `}`. -/
def pFields : Nat → Toks → Option (List RField × Toks)
  | 0, _ => none
  | n + 1, ts =>
    if ts.head? = some (.sym c!"}") then some ([], ts.tail)
    else (pAttrs n ts).bind fun a => (pIdent (pPub a.2).2).bind fun i => (expect (.sym c!":") i.2).bind fun r =>
      (pType n r).bind fun t =>
        let f : RField := ⟨a.1, (pPub a.2).1, i.1, t.1⟩
        if t.2.head? = some (.sym c!",") then (pFields n t.2.tail).map fun q => (f :: q.1, q.2)
        else if t.2.head? = some (.sym c!"}") then some ([f], t.2.tail)
        else none

/-- The fields of a variant, if there are any. -/
def pVariantFields (n : Nat) (ts : Toks) : Option (Option (List RType) × Toks) :=
  if ts.head? = some (.sym c!"(") then (pTypes c!")" n ts.tail).map fun p => (some p.1, p.2) else some (none, ts)

/-- The number of a variant, if there is one. -/
def pDiscriminant (ts : Toks) : Option (Option ROperand × Toks) :=
  if ts.head? = some (.sym c!"=") then (pOperand ts.tail).map fun p => (some p.1, p.2) else some (none, ts)

/-- The variants of an enum, up to `}`. -/
def pVariants : Nat → Toks → Option (List RVariant × Toks)
  | 0, _ => none
  | n + 1, ts =>
    if ts.head? = some (.sym c!"}") then some ([], ts.tail)
    else (pAttrs n ts).bind fun a => (pIdent a.2).bind fun i => (pVariantFields n i.2).bind fun t =>
      (pDiscriminant t.2).bind fun d =>
        let v : RVariant := ⟨a.1, i.1, t.1, d.1⟩
        if d.2.head? = some (.sym c!",") then (pVariants n d.2.tail).map fun q => (v :: q.1, q.2)
        else if d.2.head? = some (.sym c!"}") then some ([v], d.2.tail)
        else none

/-- A parameter of a function. -/
def pParam (n : Nat) (ts : Toks) : Option (RParam × Toks) :=
  if ts.head? = some (.sym c!"&") then (expect (key c!"self") ts.tail).map fun r => (.refSelf, r)
  else (pIdent ts).bind fun i => (expect (.sym c!":") i.2).bind fun r => (pType n r).map fun t => (.typed i.1 t.1, t.2)

/-- Parameters, up to `)`. -/
def pParams : Nat → Toks → Option (List RParam × Toks)
  | 0, _ => none
  | n + 1, ts =>
    if ts.head? = some (.sym c!")") then some ([], ts.tail)
    else (pParam n ts).bind fun p =>
      if p.2.head? = some (.sym c!",") then (pParams n p.2.tail).map fun q => (p.1 :: q.1, q.2)
      else if p.2.head? = some (.sym c!")") then some ([p.1], p.2.tail)
      else none

/-- A member of an `impl`. -/
def pMember (n : Nat) (ts : Toks) : Option (RMember × Toks) :=
  if ts.head? = some (key c!"type") then
    (pIdent ts.tail).bind fun i => (expect (.sym c!"=") i.2).bind fun r => (pType n r).bind fun t =>
      (expect (.sym c!";") t.2).map fun r => (.assoc i.1 t.1, r)
  else if ts.head? = some (key c!"fn") then
    (pIdent ts.tail).bind fun i => (expect (.sym c!"(") i.2).bind fun r => (pParams n r).bind fun ps =>
      (expect (.sym c!"->") ps.2).bind fun r => (pType n r).bind fun t => (expect (.sym c!"{") t.2).bind fun r =>
        (pExpr n r).bind fun e => (expect (.sym c!"}") e.2).map fun r => (.fn i.1 ps.1 t.1 e.1, r)
  else none

/-- Members, up to `}`. -/
def pMembers : Nat → Toks → Option (List RMember × Toks)
  | 0, _ => none
  | n + 1, ts =>
    if ts.head? = some (.sym c!"}") then some ([], ts.tail)
    else (pMember n ts).bind fun p => (pMembers n p.2).map fun q => (p.1 :: q.1, q.2)

/-- An item. -/
def pItem (n : Nat) (ts : Toks) : Option (RItem × Toks) :=
  (pAttrs n ts).bind fun a =>
    let pub := (pPub a.2).1
    let ts := (pPub a.2).2
    if ts.head? = some (key c!"enum") then
      (pIdent ts.tail).bind fun i => (expect (.sym c!"{") i.2).bind fun r =>
        (pVariants n r).map fun vs => (.enum a.1 pub i.1 vs.1, vs.2)
    else if ts.head? = some (key c!"struct") then
      (pIdent ts.tail).bind fun i => (expect (.sym c!"{") i.2).bind fun r =>
        (pFields n r).map fun fs => (.struct a.1 pub i.1 fs.1, fs.2)
    else if a.1 ≠ [] then none
    else if ts.head? = some (key c!"const") then
      (pIdent ts.tail).bind fun i => (expect (.sym c!":") i.2).bind fun r => (pType n r).bind fun t =>
        (expect (.sym c!"=") t.2).bind fun r => (pExpr n r).bind fun e =>
          (expect (.sym c!";") e.2).map fun r => (.const pub i.1 t.1 e.1, r)
    else if ts.head? = some (key c!"type") then
      (pIdent ts.tail).bind fun i => (expect (.sym c!"=") i.2).bind fun r => (pType n r).bind fun t =>
        (expect (.sym c!";") t.2).map fun r => (.alias pub i.1 t.1, r)
    else if pub then none
    else if ts.head? = some (key c!"use") then (pUse ts.tail).map fun p => (.use p.1, p.2)
    else if ts.head? = some (key c!"impl") then
      (pType n ts.tail).bind fun tr => (expect (key c!"for") tr.2).bind fun r => (pType n r).bind fun t =>
        (expect (.sym c!"{") t.2).bind fun r => (pMembers n r).map fun ms => (.impl tr.1 t.1 ms.1, ms.2)
    else none

/-- Items, up to the end. -/
def pItems : Nat → Toks → Option (List RItem)
  | 0, _ => none
  | n + 1, ts =>
    if ts = [] then some []
    else (pItem n ts).bind fun p => (pItems n p.2).map fun q => p.1 :: q

/-- The items of a Rust text. -/
def parseRust (s : Str) : Option (List RItem) := (lexRust s).bind fun ts => pItems (4 * ts.length + 3) ts

end Xdr.Rpcgen
