import Verif.Rpcgen.Tokens
import Verif.Spec.RustTokens
import Verif.Model.Types
/-!
# What rustc makes of the tokens of a `Serialize` and a `Deserialize` impl

A part of Rust that is enough for impls which write a tuple and read a tuple: statements, `match`, calls. Reading is
from the Rust reference and does not know the derive macros; what a statement does is from the documentation of
serde's traits. `none`: no Rust, or not in this part of Rust.
-/

namespace Xdr.RustCode

open Rpcgen (Str Token RIdent Delim Lexeme lexemes tokensText lexRust)

/-! ## Syntax -/

/-- The word `s`, not `r#s`. -/
def w (s : Str) : RIdent := ⟨false, s⟩

/-- The parts between tokens `s`; groups are one token. -/
def splitAt (s : Str) : List Token → List (List Token)
  | [] => [[]]
  | t :: ts =>
    match t with
    | .op x => if x = s then [] :: splitAt s ts else
        match splitAt s ts with
        | [] => [[t]]
        | p :: ps => (t :: p) :: ps
    | _ =>
      match splitAt s ts with
      | [] => [[t]]
      | p :: ps => (t :: p) :: ps

/-- The part before the first token `s`, and the part after it. -/
def cutAt (s : Str) : List Token → Option (List Token × List Token)
  | [] => none
  | t :: ts =>
    match t with
    | .op x => if x = s then some ([], ts) else (cutAt s ts).map fun p => (t :: p.1, p.2)
    | _ => (cutAt s ts).map fun p => (t :: p.1, p.2)

/-- The tokens up to the `>` that closes `depth + 1` open `<`, and the part after it. -/
def closeAngle (depth : Nat) : List Token → Option (List Token × List Token)
  | [] => none
  | t :: ts =>
    match t with
    | .op x =>
      if x = c!">" then
        match depth with
        | 0 => some ([], ts)
        | d + 1 => (closeAngle d ts).map fun p => (t :: p.1, p.2)
      else if x = c!"<" then (closeAngle (depth + 1) ts).map fun p => (t :: p.1, p.2)
      else (closeAngle depth ts).map fun p => (t :: p.1, p.2)
    | _ => (closeAngle depth ts).map fun p => (t :: p.1, p.2)

/-- Tokens that can stand for a type: a `>` after them closes a `<` before them, and there is no `;` outside of
brackets. -/
def IsType (ts : List Token) : Prop := .op c!";" ∉ ts ∧ closeAngle 0 (ts ++ [.op c!">"]) = some (ts, [])

inductive Expr where
  | path (isGlobal : Bool) (segs : List RIdent)
  | lit (s : Str)
  | ref (e : Expr)
  | call (f : Expr) (args : List Expr)
  /-- `e.name::<ty>(args)` -/
  | method (e : Expr) (name : RIdent) (ty : Option (List Token)) (args : List Expr)
  /-- `e?` -/
  | question (e : Expr)
  /-- `e as ty` -/
  | cast (e : Expr) (ty : RIdent)
  /-- `|_| e` -/
  | closure (e : Expr)
  | macroCall (name : RIdent) (args : List Token)

/-- `a::b::c` at the beginning. -/
def readPath : List Token → List RIdent × List Token
  | .ident i :: .op s :: .ident j :: ts =>
    if s = c!"::" then
      let r := readPath (.ident j :: ts)
      (i :: r.1, r.2)
    else ([i], .op s :: .ident j :: ts)
  | .ident i :: ts => ([i], ts)
  | ts => ([], ts)

/-- Words that begin something else than a path. -/
def notPath : List RIdent := [w c!"_", w c!"let", w c!"match", w c!"as", w c!"mut", w c!"fn", w c!"impl", w c!"struct",
  w c!"for", w c!"where", w c!"type"]

mutual

/-- An expression that is all of the tokens. The number bounds the depth. -/
def readExpr : Nat → List Token → Option Expr
  | 0, _ => none
  | n + 1, .op s :: ts =>
    if s = c!"&" then (readExpr n ts).map .ref
    else if s = c!"|" then
      match ts with
      | .ident i :: .op s' :: ts' => if i = w c!"_" ∧ s' = c!"|" then (readExpr n ts').map .closure else none
      | _ => none
    else if s = c!"::" then
      match readPath ts with
      | ([], _) => none
      | (segs, rest) => readPostfix n (.path true segs) rest
    else none
  | n + 1, .lit s :: ts => readPostfix n (.lit s) ts
  | _ + 1, .group _ _ :: _ => none
  | _ + 1, .lifetime _ :: _ => none
  | _ + 1, [] => none
  | n + 1, .ident i :: ts =>
    if i ∈ notPath then none
    else
      match ts with
      | .op s :: .group .paren args :: ts' =>
        if s = c!"!" then readPostfix n (.macroCall i args) ts' else none
      | _ =>
        let r := readPath (.ident i :: ts)
        readPostfix n (.path false r.1) r.2

/-- `?`, `.name(..)`, `(..)` and `as` after an expression. -/
def readPostfix : Nat → Expr → List Token → Option Expr
  | 0, _, _ => none
  | _ + 1, e, [] => some e
  | n + 1, e, .group .paren args :: ts =>
    match readArgs n args with
    | some as => readPostfix n (.call e as) ts
    | none => none
  | n + 1, e, .op s :: ts =>
    if s = c!"?" then readPostfix n (.question e) ts
    else if s = c!"." then
      match ts with
      | .ident m :: .group .paren args :: ts' =>
        match readArgs n args with
        | some as => readPostfix n (.method e m none as) ts'
        | none => none
      | .ident m :: .op a :: .op b :: ts' =>
        if a = c!"::" ∧ b = c!"<" then
          match closeAngle 0 ts' with
          | some (ty, .group .paren args :: ts'') =>
            match readArgs n args with
            | some as => readPostfix n (.method e m (some ty) as) ts''
            | none => none
          | _ => none
        else none
      | _ => none
    else none
  | n + 1, e, .ident i :: .ident ty :: ts => if i = w c!"as" then readPostfix n (.cast e ty) ts else none
  | _, _, _ => none

/-- The arguments of a call. -/
def readArgs : Nat → List Token → Option (List Expr)
  | _, [] => some []
  | 0, _ => none
  | n + 1, ts => (splitAt c!"," ts).mapM (readExpr n)

end

/-- How deep the expressions of this part of Rust are. -/
def depth : Nat := 20

inductive Stmt where
  /-- `let x = e;` -/
  | bind (x : RIdent) (e : Expr)
  /-- `e;` -/
  | run (e : Expr)
  /-- `match e { arms }` -/
  | matchOn (e : Expr) (arms : List Token)

/-- The end of a block: its value. -/
inductive Tail where
  | none
  | expr (e : Expr)
  | matchOn (e : Expr) (arms : List Token)

structure Block where
  stmts : List Stmt
  tail : Tail

/-- `let x = e` or `let mut x = e` -/
def readLet : List Token → Option Stmt
  | .ident x :: .op s :: ts => if s = c!"=" then (readExpr depth ts).map (.bind x) else none
  | .ident m :: .ident x :: .op s :: ts =>
    if m = w c!"mut" ∧ s = c!"=" then (readExpr depth ts).map (.bind x) else none
  | _ => none

/-- The statement before a semicolon; there may be none. -/
def readStmt : List Token → Option (List Stmt)
  | [] => some []
  | .ident i :: ts =>
    if i = w c!"let" then (readLet ts).map fun s => [s]
    else (readExpr depth (.ident i :: ts)).map fun e => [.run e]
  | ts => (readExpr depth ts).map fun e => [.run e]

/-- What is after the last semicolon: a `match` and then an expression, or one of them, or nothing. -/
def readTail : List Token → Option Block
  | [] => some ⟨[], .none⟩
  | .ident i :: ts =>
    if i = w c!"match" then
      match ts with
      | .ident x :: .group .brace arms :: rest =>
        match rest with
        | [] => some ⟨[], .matchOn (.path false [x]) arms⟩
        | _ => (readExpr depth rest).map fun e => ⟨[.matchOn (.path false [x]) arms], .expr e⟩
      | _ => none
    else (readExpr depth (.ident i :: ts)).map fun e => ⟨[], .expr e⟩
  | ts => (readExpr depth ts).map fun e => ⟨[], .expr e⟩

/-- Statements, and the tail. -/
def readPieces : List (List Token) → Option Block
  | [] => none
  | [p] => readTail p
  | p :: ps =>
    match readStmt p, readPieces ps with
    | some s, some b => some ⟨s ++ b.stmts, b.tail⟩
    | _, _ => none

/-- The tokens between braces as statements. -/
def readBlock (ts : List Token) : Option Block := readPieces (splitAt c!";" ts)

inductive Pat where
  | wild
  /-- `a::b` -/
  | path (segs : List RIdent)
  /-- `a::b(x, y)` -/
  | tuple (segs : List RIdent) (args : List RIdent)
  | macroCall (name : RIdent) (args : List Token)

/-- `x, y` -/
def readNames : List Token → Option (List RIdent)
  | [] => some []
  | [.ident x] => some [x]
  | .ident x :: .op s :: ts => if s = c!"," then (readNames ts).map (x :: ·) else none
  | _ => none

def readPat : List Token → Option Pat
  | [.ident i] => if i = w c!"_" then some .wild else none
  | [.ident i, .op s, .group .paren args] => if s = c!"!" then some (.macroCall i args) else none
  | [.ident i, .op s, .ident j] => if s = c!"::" ∧ i ∉ notPath then some (.path [i, j]) else none
  | [.ident i, .op s, .ident j, .group .paren args] =>
    if s = c!"::" ∧ i ∉ notPath then (readNames args).map (.tuple [i, j]) else none
  | _ => none

/-- `pattern => { block }` or `pattern => expression` -/
def readArm (ts : List Token) : Option (Pat × Block) :=
  match cutAt c!"=>" ts with
  | some (p, [.group .brace body]) =>
    match readPat p, readBlock body with
    | some p, some b => some (p, b)
    | _, _ => none
  | some (p, body) =>
    match readPat p, readExpr depth body with
    | some p, some e => some (p, ⟨[], .expr e⟩)
    | _, _ => none
  | none => none

/-- Arms with commas between them, and maybe one at the end. -/
def readPiecesArms : List (List Token) → Option (List (Pat × Block))
  | [] => some []
  | [[]] => some []
  | p :: ps =>
    match readArm p, readPiecesArms ps with
    | some a, some as => some (a :: as)
    | _, _ => none

def readArms (ts : List Token) : Option (List (Pat × Block)) := readPiecesArms (splitAt c!"," ts)

/-! ## What the enum is -/

/-- An enum whose variants have no fields or a list of types. -/
structure EnumType where
  name : RIdent
  variants : List (RIdent × Option (List Ty))

/-- The position and the fields of a variant. -/
def EnumType.variant (e : EnumType) (v : RIdent) : Option (Nat × Option (List Ty)) :=
  (e.variants.findIdx? fun x => x.1 = v).bind fun i => (e.variants[i]?).map fun x => (i, x.2)

/-! ## `serialize` -/

/-- What a variable is. -/
inductive SVar where
  | self
  | serializer
  /-- the `SerializeTuple` object -/
  | tuple
  | i32 (i : Int32)
  /-- a reference to a field -/
  | field (t : Ty) (v : Val)

/-- The variables, and the length announced and the elements written so far. -/
structure SState where
  vars : List (RIdent × SVar)
  out : Option (Nat × List SVal)

/-- The last variable of that name. -/
def find {α : Type} (x : RIdent) (vars : List (RIdent × α)) : Option α := (vars.find? fun p => p.1 = x).map (·.2)

/-- The digits before the suffix of a number. -/
def natOf (s : Str) : Option Nat :=
  let digits := s.takeWhile Char.isDigit
  let suffix := s.dropWhile Char.isDigit
  if digits ≠ [] ∧ (suffix = [] ∨ suffix = c!"usize") then some (Nat.ofDigitChars 10 digits 0) else none

/-- An expression of type `usize`. -/
def usizeOf (vars : List (RIdent × SVar)) : Expr → Option Nat
  | .lit s => natOf s
  | .cast (.path false [x]) ty =>
    if ty = w c!"usize" then
      match find x vars with
      | some (.i32 i) => some (i32AsUsize i)
      | _ => none
    else none
  | _ => none

/-- The argument of `serialize_element`, a reference: the calls its `Serialize` impl makes. -/
def elementOf (env : Env) (vars : List (RIdent × SVar)) : Expr → Option SVal
  | .ref (.path false [x]) =>
    match find x vars with
    | some (.i32 i) => some (.i32 i)
    | _ => none
  | .path false [x] =>
    match find x vars with
    | some (.field t v) => present env t v
    | _ => none
  | _ => none

/-- `x.serialize_element(arg)?` for the `SerializeTuple` object `x`. -/
def runElement (env : Env) (s : SState) : Expr → Option SState
  | .question (.method (.path false [x]) m none [arg]) =>
    if m = w c!"serialize_element" then
      match find x s.vars, s.out, elementOf env s.vars arg with
      | some .tuple, some (n, es), some e => some { s with out := some (n, es ++ [e]) }
      | _, _, _ => none
    else none
  | _ => none

/-- The statements of an arm. -/
def runElements (env : Env) (s : SState) : List Stmt → Option SState
  | [] => some s
  | .run e :: ss =>
    match runElement env s e with
    | some s => runElements env s ss
    | none => none
  | _ => none

/-- Whether the pattern matches variant `v` with the fields `vs`, and the variables it binds. The outer `none`: a type
error. -/
def bindPat (enumName : RIdent) (v : RIdent × Option (List Ty)) (vs : List Val) :
    Pat → Option (Option (List (RIdent × SVar)))
  | .wild => some (some [])
  | .path [e, n] =>
    if e ≠ enumName then none
    else if n ≠ v.1 then some none
    else if v.2 = none then some (some []) else none
  | .tuple [e, n] args =>
    if e ≠ enumName then none
    else if n ≠ v.1 then some none
    else
      match v.2 with
      | some ts =>
        if args.length = ts.length ∧ ts.length = vs.length then
          some (some (args.zip ((ts.zip vs).map fun p => .field p.1 p.2)))
        else none
      | none => none
  | _ => none

/-- The first arm that matches, with its variables. -/
def selectArm (enumName : RIdent) (v : RIdent × Option (List Ty)) (vs : List Val) :
    List (Pat × Block) → Option (List (RIdent × SVar) × Block)
  | [] => none
  | (p, b) :: arms =>
    match bindPat enumName v vs p with
    | none => none
    | some (some vars) => some (vars, b)
    | some none => selectArm enumName v vs arms

/-- Whether it is `unimplemented!()`. -/
def isUnimplemented : Block → Bool
  | ⟨[], .expr (.macroCall m [])⟩ => m = w c!"unimplemented"
  | _ => false

/-- What a statement leads to: it goes on, or `serialize` ends with the calls made so far and a panic. -/
inductive Outcome where
  | next (s : SState)
  | stop (calls : SVal)

/-- `match self { arms }` on variant `v` with the fields `vs`. -/
def runMatch (env : Env) (enumName : RIdent) (v : RIdent × Option (List Ty)) (vs : List Val) (s : SState)
    (arms : List Token) : Option Outcome :=
  match readArms arms with
  | none => none
  | some arms =>
    match selectArm enumName v vs arms with
    | none => none
    | some (vars, b) =>
      if isUnimplemented b then
        match s.out with
        | some (n, es) => some (.stop (.tuple n (es ++ [.panic .unimplemented])))
        | none => some (.stop (.panic .unimplemented))
      else
        match b.tail, runElements env { s with vars := vars ++ s.vars } b.stmts with
        | .none, some s' => some (.next { s with out := s'.out })
        | _, _ => none

/-- `let x = e;`; `index` is the method of the user's impl. -/
def runBind (index : Option (Res Int32)) (s : SState) (x : RIdent) : Expr → Option Outcome
  | .method (.path false [r]) m none [] =>
    if m = w c!"index" then
      match find r s.vars, index with
      | some .self, some (.ok i) => some (.next { s with vars := (x, .i32 i) :: s.vars })
      | some .self, some (.err _) => some (.stop (.panic .unwrapErr))
      | some .self, some (.panic p) => some (.stop (.panic p))
      | some .self, some .depth => some (.stop (.panic .unimplemented))
      | _, _ => none
    else none
  | .question (.method (.path false [r]) m none [arg]) =>
    if m = w c!"serialize_tuple" then
      match find r s.vars, s.out, usizeOf s.vars arg with
      | some .serializer, none, some n => some (.next ⟨(x, .tuple) :: s.vars, some (n, [])⟩)
      | _, _, _ => none
    else none
  | _ => none

/-- The statements of `serialize`, and then `ser.end()`. -/
def runStmts (env : Env) (enumName : RIdent) (index : Option (Res Int32)) (v : RIdent × Option (List Ty))
    (vs : List Val) (tail : Tail) (s : SState) : List Stmt → Option SVal
  | [] =>
    match tail with
    | .expr (.method (.path false [x]) m none []) =>
      match find x s.vars, s.out with
      | some .tuple, some (n, es) => if m = w c!"end" then some (.tuple n es) else none
      | _, _ => none
    | _ => none
  | stmt :: ss =>
    let o := match stmt with
      | .bind x e => runBind index s x e
      | .run e => (runElement env s e).map .next
      | .matchOn (.path false [x]) arms =>
        match find x s.vars with
        | some .self => runMatch env enumName v vs s arms
        | _ => none
      | .matchOn _ _ => none
    match o with
    | some (.next s) => runStmts env enumName index v vs tail s ss
    | some (.stop c) => some c
    | none => none

/-- The body of `serialize` of the value with variant `i` and fields `vs`. -/
def runSerialize (env : Env) (e : EnumType) (index : Option (Res Int32)) (i : Nat) (vs : List Val)
    (body : List Token) : Option SVal :=
  match e.variants[i]?, readBlock body with
  | some v, some b =>
    runStmts env e.name index v vs b.tail ⟨[(w c!"self", .self), (w c!"serializer", .serializer)], none⟩ b.stmts
  | _, _ => none

/-! ## `visit_seq` -/

/-- What a variable is. -/
inductive DVar where
  | val (v : Val)
  | str (s : String)

/-- The functions of the user's impls of `XdrIndexer` or `XdrUnion`. -/
structure UserFns where
  name_by_index : Option (Int32 → Res String)
  name_by_value : Option (Val → Res String)

/-- The text of `format!` with one argument: `{}` of an integer; `{:?}` is left out and the word `value` is there
instead. -/
def formatText (vars : List (RIdent × DVar)) : List Token → Option String
  | [.lit s, .op c, .ident x] =>
    if c = c!"," ∧ s = c!"\"Can not convert from {}\"" then
      match find x vars with
      | some (.val (.i32 i)) => some s!"Can not convert from {i.toInt}"
      | _ => none
    else none
  | [.lit s, .op c, .op a, .ident x] =>
    if c = c!"," ∧ a = c!"&" ∧ s = c!"\"Can not convert from {:?}\"" then
      match find x vars with
      | some (.val _) => some "Can not convert from value"
      | _ => none
    else none
  | _ => none

/-- `Self::Value::name_by_index(x)` or `Self::Value::name_by_value(&x)`. -/
def userCall (fns : UserFns) (vars : List (RIdent × DVar)) (f : RIdent) : Expr → Option (Res String)
  | .path false [x] =>
    if f = w c!"name_by_index" then
      match find x vars, fns.name_by_index with
      | some (.val (.i32 i)), some g => some (g i)
      | _, _ => none
    else none
  | .ref (.path false [x]) =>
    if f = w c!"name_by_value" then
      match find x vars, fns.name_by_value with
      | some (.val v), some g => some (g v)
      | _, _ => none
    else none
  | _ => none

/-- The values of the arguments of a variant. -/
def argValues (vars : List (RIdent × DVar)) : List Expr → Option (List Val)
  | [] => some []
  | .path false [x] :: es =>
    match find x vars, argValues vars es with
    | some (.val v), some vs => some (v :: vs)
    | _, _ => none
  | _ => none

/-- `Ok(E::V)` or `Ok(E::V(x, y))`. -/
def okValue (e : EnumType) (vars : List (RIdent × DVar)) : Expr → Option Val
  | .call (.path false [ok]) [.path false [n, v]] =>
    if ok = w c!"Ok" ∧ n = e.name then
      match e.variant v with
      | some (i, none) => some (.variant i [])
      | _ => none
    else none
  | .call (.path false [ok]) [.call (.path false [n, v]) args] =>
    if ok = w c!"Ok" ∧ n = e.name then
      match e.variant v, argValues vars args with
      | some (i, some ts), some vs => if ts.length = vs.length then some (.variant i vs) else none
      | _, _ => none
    else none
  | _ => none

/-- The type in `next_element::<ty>()?.unwrap()` on the `SeqAccess` object. -/
def elementType (seqName : RIdent) : Expr → Option (List Token)
  | .method (.question (.method (.path false [x]) m (some ty) [])) u none [] =>
    if x = seqName ∧ m = w c!"next_element" ∧ u = w c!"unwrap" then some ty else none
  | _ => none

/-- `let x = seq.next_element::<ty>()?.unwrap();`, one after the other, and then what `k` says. `meaning` is the type
that tokens are, and `field` its `Deserialize` impl. A type error is the panic `illTyped`. -/
def readAll (meaning : List Token → Option Ty) (field : Ty → De Val) (k : List (RIdent × DVar) → De Val) (seq : Seq)
    (vars : List (RIdent × DVar)) : List Stmt → De Val
  | [] => k vars
  | .bind x e :: ss =>
    match (elementType (w c!"seq") e).bind meaning with
    | some t => do
      let (o, seq') ← seq.next_element (field t)
      match o with
      | none => M.panic .unwrapNone
      | some v => readAll meaning field k seq' ((x, .val v) :: vars) ss
    | none => M.panic .illTyped
  | _ => M.panic .illTyped

/-- The first arm for that text: `stringify!(..)`, or `_`. -/
def textArm (s : String) : List (Pat × Block) → Option Block
  | [] => none
  | (.wild, b) :: _ => some b
  | (.macroCall m ts, b) :: arms =>
    if m = w c!"stringify" then
      if String.ofList (tokensText ts) = s then some b else textArm s arms
    else none
  | _ => none

/-- `match variant { arms }`: the statements of the arm, and `Ok(..)`. -/
def readMatch (meaning : List Token → Option Ty) (field : Ty → De Val) (e : EnumType) (s : String) (seq : Seq)
    (vars : List (RIdent × DVar)) (arms : List Token) : De Val :=
  match (readArms arms).bind (textArm s) with
  | none => M.panic .illTyped
  | some b =>
    if isUnimplemented b then M.panic .unimplemented
    else
      match b.tail with
      | .expr r => readAll meaning field (fun vars =>
          match okValue e vars r with
          | some v => pure v
          | none => M.panic .illTyped) seq vars b.stmts
      | _ => M.panic .illTyped

/-- The body of `visit_seq`: an element, its name, and a `match` on the name. -/
def runVisit (meaning : List Token → Option Ty) (field : Ty → De Val) (e : EnumType) (fns : UserFns)
    (body : List Token) (seq : Seq) : De Val :=
  match readBlock body with
  | some ⟨[.bind x e1, .bind y (.question (.method (.call (.path false [self, value, f]) [arg]) m none
      [.closure (.call (.path true path) [.macroCall fm text])]))], .matchOn (.path false [y']) arms⟩ =>
    if self = w c!"Self" ∧ value = w c!"Value" ∧ m = w c!"map_err" ∧ fm = w c!"format" ∧ y' = y ∧
        path = [w c!"serde", w c!"de", w c!"Error", w c!"custom"] then
      match (elementType (w c!"seq") e1).bind meaning with
      | some t => do
        let (o, seq) ← seq.next_element (field t)
        match o with
        | none => M.panic .unwrapNone
        | some v =>
          match userCall fns [(x, .val v)] f arg, formatText [(x, .val v)] text with
          | some (.err _), some text => M.fail (.custom text)
          | some (.panic p), some _ => M.panic p
          | some .depth, some _ => M.depth
          | some (.ok s), some _ => readMatch meaning field e s seq [(y, .str s), (x, .val v)] arms
          | _, _ => M.panic .illTyped
      | none => M.panic .illTyped
    else M.panic .illTyped
  | _ => M.panic .illTyped

/-! ## The impls -/

/-- The tokens before the first braces, those in the braces, and those after. -/
def cutBrace : List Token → Option (List Token × List Token × List Token)
  | [] => none
  | t :: ts =>
    match t with
    | .group .brace body => some ([], body, ts)
    | _ => (cutBrace ts).map fun p => (t :: p.1, p.2)

/-- Whether the tokens are those of the text and, after it, the name. -/
def isText (ts : List Token) (text : Str) (name : Option RIdent := none) : Prop :=
  (lexRust text).map (· ++ (name.map fun i => Lexeme.ident i.raw i.name).toList) = some (lexemes ts)

instance (ts : List Token) (text : Str) (name : Option RIdent) : Decidable (isText ts text name) :=
  inferInstanceAs (Decidable (_ = _))

/-- The bodies of `serialize` and of `visit_seq`, and the length given to `deserialize_tuple`. -/
structure Impls where
  serialize : List Token
  visit : List Token
  length : Nat

/-- `fn serialize<S>(..) -> .. where .. { body }`: the body. -/
def readSerialize (ts : List Token) : Option (List Token) :=
  match cutBrace ts with
  | some (sig, body, []) =>
    if isText sig c!"fn serialize<S>(&self, serializer: S) -> Result<S::Ok, S::Error> where S: ::serde::ser::Serializer,"
    then some body else none
  | _ => none

/-- `type Value = E; fn expecting(..) { .. } fn visit_seq<A>(..) { body }`: the body. -/
def readVisitor (e : RIdent) : List Token → Option (List Token)
  | .ident i :: .ident j :: .op s :: .ident e' :: .op s' :: ts =>
    if i = w c!"type" ∧ j = w c!"Value" ∧ s = c!"=" ∧ e' = e ∧ s' = c!";" then
      match cutBrace ts with
      | some (sig, _, rest) =>
        if isText sig c!"fn expecting(&self, formatter: &mut ::std::fmt::Formatter) -> ::std::fmt::Result" then
          match cutBrace rest with
          | some (sig, body, []) =>
            if isText sig
              c!"fn visit_seq<A>(self, mut seq: A) -> Result<Self::Value, A::Error> where A: ::serde::de::SeqAccess<'de>,"
            then some body else none
          | _ => none
        else none
      | none => none
    else none
  | _ => none

/-- `struct V; impl<'de> ::serde::de::Visitor<'de> for V { .. } deserializer.deserialize_tuple(n, V)`: the number and
the body of `visit_seq`. -/
def readBody (e : RIdent) : List Token → Option (Nat × List Token)
  | .ident i :: .ident v :: .op s :: ts =>
    if i = w c!"struct" ∧ s = c!";" then
      match cutBrace ts with
      | some (header, members, rest) =>
        if isText header c!"impl<'de> ::serde::de::Visitor<'de> for" (some v) then
          match readVisitor e members, readExpr depth rest with
          | some body, some (.method (.path false [d]) m none [.lit n, .path false [v']]) =>
            if d = w c!"deserializer" ∧ m = w c!"deserialize_tuple" ∧ v' = v then (natOf n).map fun n => (n, body)
            else none
          | _, _ => none
        else none
      | none => none
    else none
  | _ => none

/-- `fn deserialize<D>(..) -> .. where .. { body }` -/
def readDeserialize (e : RIdent) (ts : List Token) : Option (Nat × List Token) :=
  match cutBrace ts with
  | some (sig, body, []) =>
    if isText sig
      c!"fn deserialize<D>(deserializer: D) -> Result<Self, D::Error> where D: ::serde::de::Deserializer<'de>"
    then readBody e body else none
  | _ => none

/-- An impl of `Serialize` and then one of `Deserialize` for the enum `e`. -/
def readImpls (e : RIdent) (ts : List Token) : Option Impls :=
  match cutBrace ts with
  | some (h1, b1, rest) =>
    match cutBrace rest with
    | some (h2, b2, []) =>
      if isText h1 c!"impl ::serde::Serialize for" (some e) ∧
          isText h2 c!"impl<'de> ::serde::Deserialize<'de> for" (some e) then
        match readSerialize b1, readDeserialize e b2 with
        | some s, some (n, v) => some ⟨s, v, n⟩
        | _, _ => none
      else none
    | _ => none
  | none => none

/-- The bodies can be read: all statements and all arms of `match`. -/
def readable (body : List Token) : Prop :=
  ∃ b, readBlock body = some b ∧
    (∀ e arms, .matchOn e arms ∈ b.stmts → ∃ as, readArms arms = some as) ∧
    (∀ e arms, b.tail = .matchOn e arms → ∃ as, readArms arms = some as)

end Xdr.RustCode
