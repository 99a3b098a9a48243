import Verif.Rpcgen.Ast
import Verif.Rpcgen.Nom
import Verif.Rpcgen.Keyword
/-!
# The parser, `rpcgen/src/parser.rs` 18-24 and 435-828

Function by function. The only recursion of the grammar is `declaration` → `type_specifier` →
`struct_body` / `union_body` → `declaration`; functions on that cycle take the parser for nested types
as an argument, and `type_specifier` ties the knot with a bound on the nesting.
-/

namespace Xdr.Rpcgen

/-- `identifier`, `parser.rs` 590-599. -/
def identifier : P Str :=
  verify
    (recognize (pair (alt [alpha1, tag c!"_"]) (many0 (alt [alphanumeric1, tag c!"_"]))))
    (fun i => !xdr_reserved i)

/-- `decimal_nonzero`, `parser.rs` 491-497. -/
def decimal_nonzero : P Constant :=
  map (recognize (pair (opt (tag c!"-")) (pair (one_of c!"1234567879") (many0 digit1))))
    fun v => .decimal v

/-- `hexadecimal`, `parser.rs` 582-588. -/
def hexadecimal : P Constant :=
  map (preceded (tag c!"0x") (recognize (many1 hex_digit1))) fun v => .hex v

/-- `octal`, `parser.rs` 601-607. -/
def octal : P Constant :=
  map (preceded (tag c!"0") (recognize (many1 oct_digit1))) fun v => .octal v

/-- `constant`, `parser.rs` 473-481. -/
def constant : P Constant :=
  alt [decimal_nonzero, hexadecimal, octal, map (tag c!"0") fun v => .decimal v]

/-- `value`, `parser.rs` 770-776. -/
def value : P Value := alt [map constant .constant, map identifier .identifier]

/-- `comment0`, `parser.rs` 458-467. -/
def comment0 : P (Option (List Str)) :=
  preceded multispace0
    (opt (many1 (terminated (delimited (tag c!"/*") (take_until c!"*/") (tag c!"*/")) multispace0)))

/-- `comment_line`, `parser.rs` 469-471. -/
def comment_line : P Str := delimited (tag c!"%") not_line_ending line_ending

/-- `assign`, `parser.rs` 435-441. -/
def assign : P Assign :=
  map (pair identifier (preceded (pair comment0 (pair (tag c!"=") comment0)) value))
    fun (i, v) => ⟨i, v⟩

/-- `constant_def`, `parser.rs` 483-489. -/
def constant_def : P Assign :=
  preceded (pair (tag c!"const") multispace1) (terminated assign (pair comment0 (tag c!";")))

/-- `enum_body`, `parser.rs` 565-572. -/
def enum_body : P (List Assign) :=
  delimited (pair (tag c!"{") comment0)
    (separated_list1 (pair comment0 (pair (tag c!",") comment0)) assign)
    (pair comment0 (tag c!"}"))

/-- `enum_type_spec`, `parser.rs` 574-580. -/
def enum_type_spec : P (List Assign) := preceded (pair (tag c!"enum") multispace1) enum_body

/-- `declaration`, `parser.rs` 499-553; `ts` is `type_specifier`. -/
def declaration (ts : P TypeSpecifier) : P Declaration :=
  alt [
    map (tag c!"void") fun _ => .void,
    map (pair (preceded (pair (tag c!"opaque") multispace1) identifier)
        (delimited (tag c!"[") value (tag c!"]")))
      fun (i, v) => .opaqueFixedArray i v,
    map (pair (preceded (pair (tag c!"opaque") multispace1) identifier)
        (delimited (tag c!"<") (opt value) (tag c!">")))
      fun (i, v) => .opaqueVariableArray i v,
    map (pair (preceded (pair (tag c!"string") multispace1) identifier)
        (delimited (tag c!"<") (opt value) (tag c!">")))
      fun (i, v) => .string i v,
    map (pair ts (pair (preceded multispace1 identifier)
        (delimited (tag c!"[") value (tag c!"]"))))
      fun (t, i, v) => .fixedArray t i v,
    map (pair ts (pair (preceded multispace1 identifier)
        (delimited (tag c!"<") (opt value) (tag c!">"))))
      fun (t, i, v) => .variableArray t i v,
    map (pair ts (preceded (pair multispace0 (pair (tag c!"*") multispace0)) identifier))
      fun (t, i) => .optionVariable t i,
    map (pair ts (preceded multispace1 identifier))
      fun (t, i) => .variable t i]

/-- `case_spec`, `parser.rs` 443-456; `ts` is `type_specifier`. -/
def case_spec (ts : P TypeSpecifier) : P CaseSpec :=
  map (pair
      (many1 (delimited (pair comment0 (pair (tag c!"case") comment0)) value
        (pair comment0 (pair (tag c!":") comment0))))
      (terminated (declaration ts) (pair comment0 (tag c!";"))))
    fun (v, d) => .mk v d

/-- `struct_body`, `parser.rs` 613-620; `ts` is `type_specifier`. -/
def struct_body (ts : P TypeSpecifier) : P (List Declaration) :=
  delimited (pair (tag c!"{") comment0)
    (many1 (terminated (declaration ts) (pair comment0 (pair (tag c!";") comment0))))
    (pair comment0 (tag c!"}"))

/-- `struct_type_spec`, `parser.rs` 622-628; `ts` is `type_specifier`. -/
def struct_type_spec (ts : P TypeSpecifier) : P (List Declaration) :=
  preceded (pair (tag c!"struct") multispace1) (struct_body ts)

/-- `union_body`, `parser.rs` 739-760; `ts` is `type_specifier`. -/
def union_body (ts : P TypeSpecifier) : P UnionBody :=
  map (pair
      (delimited (pair (tag c!"switch") (pair comment0 (pair (tag c!"(") comment0)))
        (declaration ts)
        (pair comment0 (pair (tag c!")") (pair comment0 (pair (tag c!"{") comment0)))))
      (pair (many1 (terminated (case_spec ts) comment0))
        (terminated
          (opt (delimited
            (pair comment0 (pair (tag c!"default") (pair comment0 (pair (tag c!":") comment0))))
            (declaration ts)
            (pair comment0 (tag c!";"))))
          (pair comment0 (tag c!"}")))))
    fun (c, s, d) => .mk c s d

/-- `union_type_spec`, `parser.rs` 762-768; `ts` is `type_specifier`. -/
def union_type_spec (ts : P TypeSpecifier) : P UnionBody :=
  preceded (pair (tag c!"union") multispace1) (union_body ts)

/-- `terminated(tag(t), peek(multispace1))`, a keyword followed by a blank, `parser.rs` 674-728. -/
def word (t : Str) : P Str := terminated (tag t) (peek multispace1)

/-- `(tag("unsigned"), multispace1, terminated(tag(t), peek(multispace1)))`, `parser.rs` 671-711. -/
def unsignedWord (t : Str) : P Str := preceded (pair (tag c!"unsigned") multispace1) (word t)

/-- The body of `type_specifier`, `parser.rs` 668-737; `ts` is `type_specifier` for nested types. -/
def typeSpecifierWith (ts : P TypeSpecifier) : P TypeSpecifier :=
  alt [
    map (unsignedWord c!"int") fun _ => .int false,
    map (word c!"int") fun _ => .int true,
    map (unsignedWord c!"hyper") fun _ => .hyper false,
    map (word c!"hyper") fun _ => .hyper true,
    map (unsignedWord c!"char") fun _ => .char false,
    map (word c!"char") fun _ => .char true,
    map (unsignedWord c!"short") fun _ => .short false,
    map (word c!"short") fun _ => .short true,
    map (word c!"unsigned") fun _ => .int false,
    map (word c!"float") fun _ => .float,
    map (word c!"double") fun _ => .double,
    map (word c!"quadruple") fun _ => .quadruple,
    map (word c!"bool") fun _ => .bool,
    map enum_type_spec .enum,
    map (struct_type_spec ts) .struct,
    map (union_type_spec ts) .union,
    map identifier .identifier]

/-- `type_specifier`, `parser.rs` 668-737, with a bound on the nesting of types. -/
def type_specifier : Nat → P TypeSpecifier
  | 0 => fun _ => .out
  | n + 1 => typeSpecifierWith (type_specifier n)

/-- `type_def`, `parser.rs` 630-666; `ts` is `type_specifier`. -/
def type_def (ts : P TypeSpecifier) : P TypeDef :=
  alt [
    map (delimited (pair (tag c!"typedef") multispace1) (declaration ts)
        (pair comment0 (tag c!";")))
      .declaration,
    map (delimited (pair (tag c!"enum") multispace1)
        (pair (terminated identifier comment0) enum_body)
        (pair comment0 (tag c!";")))
      fun (i, v) => .enum i v,
    map (delimited (pair (tag c!"struct") multispace1)
        (pair (terminated identifier comment0) (struct_body ts))
        (pair comment0 (tag c!";")))
      fun (i, v) => .struct i v,
    map (delimited (pair (tag c!"union") multispace1)
        (pair (terminated identifier comment0) (union_body ts))
        (pair comment0 (tag c!";")))
      fun (i, v) => .union i v]

/-- `alt((type_specifier, map(tag("void"), ..)))`, `parser.rs` 814 and 820. -/
def typeOrVoid (ts : P TypeSpecifier) : P TypeSpecifier :=
  alt [ts, map (tag c!"void") fun _ => .void]

/-- `procedure`, `parser.rs` 810-828; `ts` is `type_specifier`. -/
def procedure (ts : P TypeSpecifier) : P Procedure :=
  map (pair (terminated (typeOrVoid ts) multispace1)
      (pair identifier
        (pair (delimited (pair multispace0 (pair (tag c!"(") multispace0)) (typeOrVoid ts)
            (pair multispace0 (pair (tag c!")") multispace0)))
          (delimited (pair (tag c!"=") multispace0) value (pair multispace0 (tag c!";"))))))
    fun (a, b, c, d) => ⟨a, b, c, d⟩

/-- `version`, `parser.rs` 794-808; `ts` is `type_specifier`. -/
def version (ts : P TypeSpecifier) : P Version :=
  map (pair (preceded (pair (tag c!"version") multispace1) identifier)
      (pair (delimited (pair multispace0 (pair (tag c!"{") multispace0))
          (many1 (terminated (procedure ts) multispace0))
          (pair multispace0 (pair (tag c!"}") multispace0)))
        (delimited (pair (tag c!"=") multispace0) value (pair multispace0 (tag c!";")))))
    fun (a, b, c) => ⟨a, b, c⟩

/-- `program`, `parser.rs` 778-792; `ts` is `type_specifier`. -/
def program (ts : P TypeSpecifier) : P Program :=
  map (pair (preceded (pair (tag c!"program") multispace1) identifier)
      (pair (delimited (pair multispace0 (pair (tag c!"{") multispace0))
          (many1 (version ts))
          (pair multispace0 (pair (tag c!"}") multispace0)))
        (delimited (pair (tag c!"=") multispace0) value (pair multispace0 (tag c!";")))))
    fun (a, b, c) => ⟨a, b, c⟩

/-- `definition`, `parser.rs` 555-563; `ts` is `type_specifier`. -/
def definition (ts : P TypeSpecifier) : P Definition :=
  alt [
    map constant_def .constant,
    map (type_def ts) .type,
    map (program ts) .program,
    map comment_line fun _ => .lineComment]

/-- `specification`, `parser.rs` 609-611; `ts` is `type_specifier`. -/
def specification (ts : P TypeSpecifier) : P (List Definition) :=
  many0 (delimited comment0 (definition ts) comment0)

/-- What `parse` returns: definitions or one of the two errors it can raise (`error.rs` 5-10;
the text of `Parse` is dropped). `out` is not Rust behaviour: the bound on nesting was used up. -/
inductive ParseResult where
  | ok (ds : List Definition)
  | parseError
  | trailingData
  | out

/-- `parse`, `parser.rs` 18-24, with a bound on the nesting of types. -/
def parseWith (n : Nat) (input : Str) : ParseResult :=
  match specification (type_specifier n) input with
  | .ok ret rest => if rest.isEmpty then .ok ret else .trailingData
  | .err => .parseError
  | .out => .out

/-- `parse`, `parser.rs` 18-24. Types nest at most as deep as the text is long (`C34_parse_total`), so
the bound is the length of the text. -/
def parse (input : Str) : ParseResult := parseWith (input.length + 1) input

end Xdr.Rpcgen
