import Verif.Rpcgen.Parser
/-!
# The parser with a counter

The functions of `rpcgen/src/parser.rs` once more, on the cycle through `type_specifier`, with a count of
the calls of `type_specifier`. Everything else costs nothing here, so the count is a lower bound for the
work of `parse`. `RpcgenProofs/Cost.lean` proves that the results are those of `Rpcgen/Parser.lean`.
-/

namespace Xdr.Rpcgen

/-- A parser that also says how many calls it made. `IResult` of `parser.rs`, with a counter. -/
def PC (α : Type) : Type := Str → PR α × Nat

namespace PC

variable {α β γ : Type}

/-- A parser that does not call `type_specifier`. Plumbing. -/
def lift (p : P α) : PC α := fun i => (p i, 0)

/-- One parser after the other (`P.bind`); the counts add up. Plumbing: `?` in `parser.rs`. -/
def bind (p : PC α) (f : α → PC β) : PC β := fun i =>
  match p i with
  | (.ok a r, k) => ((f a r).1, k + (f a r).2)
  | (.err, k) => (.err, k)
  | (.out, k) => (.out, k)

/-- One more call. At `type_specifier` of `parser.rs` only. -/
def tick (p : PC α) : PC α := fun i => ((p i).1, (p i).2 + 1)

/-- `combinator::map`. Nom; used in `parser.rs`. -/
def map (p : PC α) (f : α → β) : PC β := p.bind fun a => lift (P.pure (f a))

/-- `sequence::preceded`. Nom; used in `parser.rs`. -/
def preceded (p : PC α) (q : PC β) : PC β := p.bind fun _ => q

/-- `sequence::terminated`. Nom; used in `parser.rs`. -/
def terminated (p : PC α) (q : PC β) : PC α := p.bind fun a => q.bind fun _ => lift (P.pure a)

/-- `sequence::delimited`. Nom; used in `parser.rs`. -/
def delimited (p : PC α) (q : PC β) (r : PC γ) : PC β :=
  p.bind fun _ => q.bind fun b => r.bind fun _ => lift (P.pure b)

/-- `sequence::pair`. Nom; used in `parser.rs`. -/
def pair (p : PC α) (q : PC β) : PC (α × β) := p.bind fun a => q.bind fun b => lift (P.pure (a, b))

/-- `branch::alt`: alternatives that fail cost what they cost. Nom; used in `parser.rs`. -/
def alt : List (PC α) → PC α
  | [], _ => (.err, 0)
  | p :: ps, i =>
    match p i with
    | (.err, k) => ((alt ps i).1, k + (alt ps i).2)
    | r => r

/-- `combinator::opt`. Nom; used in `parser.rs`. -/
def opt (p : PC α) : PC (Option α) := fun i =>
  match p i with
  | (.ok a r, k) => (.ok (some a) r, k)
  | (.err, k) => (.ok none i, k)
  | (.out, k) => (.out, k)

/-- The loop of `multi::many0` (`manyLoop`). Nom; used in `parser.rs`. -/
def manyLoop (p : PC α) : Nat → PC (List α)
  | 0, _ => (.out, 0)
  | n + 1, i =>
    match p i with
    | (.err, k) => (.ok [] i, k)
    | (.out, k) => (.out, k)
    | (.ok a r, k) =>
      if r.length = i.length then (.err, k)
      else
        match manyLoop p n r with
        | (.ok as r', l) => (.ok (a :: as) r', k + l)
        | (.err, l) => (.err, k + l)
        | (.out, l) => (.out, k + l)

/-- `multi::many0`. Nom; used in `parser.rs`. -/
def many0 (p : PC α) : PC (List α) := fun i => manyLoop p (i.length + 1) i

/-- `multi::many1`. Nom; used in `parser.rs`. -/
def many1 (p : PC α) : PC (List α) := p.bind fun a => (many0 p).bind fun as => lift (P.pure (a :: as))

end PC

open PC (lift)

/-- `declaration`, `parser.rs` 499-553. -/
def declarationC (ts : PC TypeSpecifier) : PC Declaration :=
  .alt [
    lift (map (tag c!"void") fun _ => .void),
    lift (map (pair (preceded (pair (tag c!"opaque") multispace1) identifier)
        (delimited (tag c!"[") value (tag c!"]")))
      fun (i, v) => .opaqueFixedArray i v),
    lift (map (pair (preceded (pair (tag c!"opaque") multispace1) identifier)
        (delimited (tag c!"<") (opt value) (tag c!">")))
      fun (i, v) => .opaqueVariableArray i v),
    lift (map (pair (preceded (pair (tag c!"string") multispace1) identifier)
        (delimited (tag c!"<") (opt value) (tag c!">")))
      fun (i, v) => .string i v),
    .map (.pair ts (lift (pair (preceded multispace1 identifier)
        (delimited (tag c!"[") value (tag c!"]")))))
      fun (t, i, v) => .fixedArray t i v,
    .map (.pair ts (lift (pair (preceded multispace1 identifier)
        (delimited (tag c!"<") (opt value) (tag c!">")))))
      fun (t, i, v) => .variableArray t i v,
    .map (.pair ts (lift (preceded (pair multispace0 (pair (tag c!"*") multispace0)) identifier)))
      fun (t, i) => .optionVariable t i,
    .map (.pair ts (lift (preceded multispace1 identifier)))
      fun (t, i) => .variable t i]

/-- `case_spec`, `parser.rs` 443-456. -/
def case_specC (ts : PC TypeSpecifier) : PC CaseSpec :=
  .map (.pair
      (lift (many1 (delimited (pair comment0 (pair (tag c!"case") comment0)) value
        (pair comment0 (pair (tag c!":") comment0)))))
      (.terminated (declarationC ts) (lift (pair comment0 (tag c!";")))))
    fun (v, d) => .mk v d

/-- `struct_body`, `parser.rs` 613-620. -/
def struct_bodyC (ts : PC TypeSpecifier) : PC (List Declaration) :=
  .delimited (lift (pair (tag c!"{") comment0))
    (.many1 (.terminated (declarationC ts) (lift (pair comment0 (pair (tag c!";") comment0)))))
    (lift (pair comment0 (tag c!"}")))

/-- `struct_type_spec`, `parser.rs` 622-628. -/
def struct_type_specC (ts : PC TypeSpecifier) : PC (List Declaration) :=
  .preceded (lift (pair (tag c!"struct") multispace1)) (struct_bodyC ts)

/-- `union_body`, `parser.rs` 739-760. -/
def union_bodyC (ts : PC TypeSpecifier) : PC UnionBody :=
  .map (.pair
      (.delimited (lift (pair (tag c!"switch") (pair comment0 (pair (tag c!"(") comment0))))
        (declarationC ts)
        (lift (pair comment0 (pair (tag c!")") (pair comment0 (pair (tag c!"{") comment0))))))
      (.pair (.many1 (.terminated (case_specC ts) (lift comment0)))
        (.terminated
          (.opt (.delimited
            (lift (pair comment0 (pair (tag c!"default") (pair comment0 (pair (tag c!":") comment0)))))
            (declarationC ts)
            (lift (pair comment0 (tag c!";")))))
          (lift (pair comment0 (tag c!"}"))))))
    fun (c, s, d) => .mk c s d

/-- `union_type_spec`, `parser.rs` 762-768. -/
def union_type_specC (ts : PC TypeSpecifier) : PC UnionBody :=
  .preceded (lift (pair (tag c!"union") multispace1)) (union_bodyC ts)

/-- The body of `type_specifier`, `parser.rs` 668-737. -/
def typeSpecifierWithC (ts : PC TypeSpecifier) : PC TypeSpecifier :=
  .alt [
    lift (map (unsignedWord c!"int") fun _ => .int false),
    lift (map (word c!"int") fun _ => .int true),
    lift (map (unsignedWord c!"hyper") fun _ => .hyper false),
    lift (map (word c!"hyper") fun _ => .hyper true),
    lift (map (unsignedWord c!"char") fun _ => .char false),
    lift (map (word c!"char") fun _ => .char true),
    lift (map (unsignedWord c!"short") fun _ => .short false),
    lift (map (word c!"short") fun _ => .short true),
    lift (map (word c!"unsigned") fun _ => .int false),
    lift (map (word c!"float") fun _ => .float),
    lift (map (word c!"double") fun _ => .double),
    lift (map (word c!"quadruple") fun _ => .quadruple),
    lift (map (word c!"bool") fun _ => .bool),
    lift (map enum_type_spec .enum),
    .map (struct_type_specC ts) .struct,
    .map (union_type_specC ts) .union,
    lift (map identifier .identifier)]

/-- `type_specifier`, `parser.rs` 668-737: here the calls are counted. -/
def type_specifierC : Nat → PC TypeSpecifier
  | 0 => fun _ => (.out, 0)
  | n + 1 => .tick (typeSpecifierWithC (type_specifierC n))

/-- `type_def`, `parser.rs` 630-666. -/
def type_defC (ts : PC TypeSpecifier) : PC TypeDef :=
  .alt [
    .map (.delimited (lift (pair (tag c!"typedef") multispace1)) (declarationC ts)
        (lift (pair comment0 (tag c!";"))))
      .declaration,
    lift (map (delimited (pair (tag c!"enum") multispace1)
        (pair (terminated identifier comment0) enum_body)
        (pair comment0 (tag c!";")))
      fun (i, v) => .enum i v),
    .map (.delimited (lift (pair (tag c!"struct") multispace1))
        (.pair (lift (terminated identifier comment0)) (struct_bodyC ts))
        (lift (pair comment0 (tag c!";"))))
      fun (i, v) => .struct i v,
    .map (.delimited (lift (pair (tag c!"union") multispace1))
        (.pair (lift (terminated identifier comment0)) (union_bodyC ts))
        (lift (pair comment0 (tag c!";"))))
      fun (i, v) => .union i v]

/-- `alt((type_specifier, map(tag("void"), ..)))`, `parser.rs` 814 and 820. -/
def typeOrVoidC (ts : PC TypeSpecifier) : PC TypeSpecifier :=
  .alt [ts, lift (map (tag c!"void") fun _ => .void)]

/-- `procedure`, `parser.rs` 810-828. -/
def procedureC (ts : PC TypeSpecifier) : PC Procedure :=
  .map (.pair (.terminated (typeOrVoidC ts) (lift multispace1))
      (.pair (lift identifier)
        (.pair (.delimited (lift (pair multispace0 (pair (tag c!"(") multispace0))) (typeOrVoidC ts)
            (lift (pair multispace0 (pair (tag c!")") multispace0))))
          (lift (delimited (pair (tag c!"=") multispace0) value (pair multispace0 (tag c!";")))))))
    fun (a, b, c, d) => ⟨a, b, c, d⟩

/-- `version`, `parser.rs` 794-808. -/
def versionC (ts : PC TypeSpecifier) : PC Version :=
  .map (.pair (lift (preceded (pair (tag c!"version") multispace1) identifier))
      (.pair (.delimited (lift (pair multispace0 (pair (tag c!"{") multispace0)))
          (.many1 (.terminated (procedureC ts) (lift multispace0)))
          (lift (pair multispace0 (pair (tag c!"}") multispace0))))
        (lift (delimited (pair (tag c!"=") multispace0) value (pair multispace0 (tag c!";"))))))
    fun (a, b, c) => ⟨a, b, c⟩

/-- `program`, `parser.rs` 778-792. -/
def programC (ts : PC TypeSpecifier) : PC Program :=
  .map (.pair (lift (preceded (pair (tag c!"program") multispace1) identifier))
      (.pair (.delimited (lift (pair multispace0 (pair (tag c!"{") multispace0)))
          (.many1 (versionC ts))
          (lift (pair multispace0 (pair (tag c!"}") multispace0))))
        (lift (delimited (pair (tag c!"=") multispace0) value (pair multispace0 (tag c!";"))))))
    fun (a, b, c) => ⟨a, b, c⟩

/-- `definition`, `parser.rs` 555-563. -/
def definitionC (ts : PC TypeSpecifier) : PC Definition :=
  .alt [
    lift (map constant_def .constant),
    .map (type_defC ts) .type,
    .map (programC ts) .program,
    lift (map comment_line fun _ => .lineComment)]

/-- `specification`, `parser.rs` 609-611. -/
def specificationC (ts : PC TypeSpecifier) : PC (List Definition) :=
  .many0 (.delimited (lift comment0) (definitionC ts) (lift comment0))

/-- `parse`, `parser.rs` 18-24: what it returns, and how often it called `type_specifier`. -/
def parseC (n : Nat) (input : Str) : ParseResult × Nat :=
  ((match (specificationC (type_specifierC n) input).1 with
    | .ok ret rest => if rest.isEmpty then .ok ret else .trailingData
    | .err => .parseError
    | .out => .out),
   (specificationC (type_specifierC n) input).2)

/-- The calls of `type_specifier` that `parse` makes. `parser.rs`, `parse`. -/
def typeCalls (input : Str) : Nat := (parseC (input.length + 1) input).2

end Xdr.Rpcgen
