import Verif.Rpcgen.Text
/-!
# The nom combinators `parser.rs` uses

A parser takes the text left and either succeeds with a value and the text then left, or fails.
nom distinguishes recoverable errors, failures and incomplete input; the parsers of `parser.rs` only
raise recoverable errors (complete parsers, no `cut`), so one `err` is enough. `out` is not Rust
behaviour: it says a recursion bound was used up.
-/

namespace Xdr.Rpcgen

/-- `IResult<&str, O>`. Nom; `parser.rs` 3-14. -/
inductive PR (α : Type) where
  | ok (a : α) (rest : Str)
  | err
  | out
deriving Inhabited

/-- A nom parser. -/
def P (α : Type) : Type := Str → PR α

namespace P

/-- Plumbing: `Ok((input, a))`. -/
def pure {α : Type} (a : α) : P α := fun i => .ok a i

/-- One parser after the other; nom's tuples, `preceded`, `terminated`, `delimited`, `pair`. -/
def bind {α β : Type} (p : P α) (f : α → P β) : P β := fun i =>
  match p i with
  | .ok a r => f a r
  | .err => .err
  | .out => .out

/-- Plumbing: `do` notation for `P`. -/
instance : Monad P where
  pure := P.pure
  bind := P.bind

/-- A parser that fails. Plumbing: `Err(nom::Err::Error(..))`. -/
def fail {α : Type} : P α := fun _ => .err

end P

/-- `combinator::map`. Nom; imported in `parser.rs` 3-14. -/
def map {α β : Type} (p : P α) (f : α → β) : P β := p.bind fun a => P.pure (f a)

/-- `sequence::preceded`. Nom; imported in `parser.rs` 3-14. -/
def preceded {α β : Type} (p : P α) (q : P β) : P β := p.bind fun _ => q

/-- `sequence::terminated`. Nom; imported in `parser.rs` 3-14. -/
def terminated {α β : Type} (p : P α) (q : P β) : P α := p.bind fun a => q.bind fun _ => P.pure a

/-- `sequence::delimited`. Nom; imported in `parser.rs` 3-14. -/
def delimited {α β γ : Type} (p : P α) (q : P β) (r : P γ) : P β :=
  p.bind fun _ => q.bind fun b => r.bind fun _ => P.pure b

/-- `sequence::pair` and two-element tuples. Nom; imported in `parser.rs` 3-14. -/
def pair {α β : Type} (p : P α) (q : P β) : P (α × β) :=
  p.bind fun a => q.bind fun b => P.pure (a, b)

/-- `branch::alt`: the first parser that does not fail. Nom; imported in `parser.rs` 3-14. -/
def alt {α : Type} : List (P α) → P α
  | [], _ => .err
  | p :: ps, i =>
    match p i with
    | .err => alt ps i
    | r => r

/-- `combinator::opt`. Nom; imported in `parser.rs` 3-14. -/
def opt {α : Type} (p : P α) : P (Option α) := fun i =>
  match p i with
  | .ok a r => .ok (some a) r
  | .err => .ok none i
  | .out => .out

/-- `combinator::peek`: consumes nothing. Nom; imported in `parser.rs` 3-14. -/
def peek {α : Type} (p : P α) : P α := fun i =>
  match p i with
  | .ok a _ => .ok a i
  | .err => .err
  | .out => .out

/-- `combinator::recognize`: the text consumed. Nom; imported in `parser.rs` 3-14. -/
def recognize {α : Type} (p : P α) : P Str := fun i =>
  match p i with
  | .ok _ r => .ok (i.take (i.length - r.length)) r
  | .err => .err
  | .out => .out

/-- `combinator::verify`. Nom; imported in `parser.rs` 3-14. -/
def verify {α : Type} (p : P α) (f : α → Bool) : P α := fun i =>
  match p i with
  | .ok a r => if f a then .ok a r else .err
  | .err => .err
  | .out => .out

/-- `bytes::complete::tag`. Nom; imported in `parser.rs` 3-14. -/
def tag (t : Str) : P Str := fun i =>
  if t.isPrefixOf i then .ok t (i.drop t.length) else .err

/-- `bytes::complete::take_until`: the text before the first occurrence of `t`; fails if there is
none. Nom; imported in `parser.rs` 3-14. -/
def take_until (t : Str) : P Str
  | [] => if t.isEmpty then .ok [] [] else .err
  | c :: cs =>
    if t.isPrefixOf (c :: cs) then .ok [] (c :: cs)
    else
      match take_until t cs with
      | .ok a r => .ok (c :: a) r
      | .err => .err
      | .out => .out

/-- `take_while`, the shape of the `..0` character parsers. Nom, in combinators imported in `parser.rs` 3-14. -/
def takeWhile0 (f : Char → Bool) : P Str := fun i => .ok (i.takeWhile f) (i.dropWhile f)

/-- `take_while1`, the shape of the `..1` character parsers. Nom, in combinators imported in `parser.rs` 3-14. -/
def takeWhile1 (f : Char → Bool) : P Str := fun i =>
  if (i.takeWhile f).isEmpty then .err else .ok (i.takeWhile f) (i.dropWhile f)

/-- The characters of `multispace0` / `multispace1`. Nom and std, in combinators imported in `parser.rs` 3-14. -/
def isSpace (c : Char) : Bool := c == ' ' || c == '\t' || c == '\r' || c == '\n'

/-- `char::is_ascii_hexdigit`. Nom and std, in combinators imported in `parser.rs` 3-14. -/
def isHex (c : Char) : Bool :=
  isDigit c || (65 ≤ c.toNat && c.toNat ≤ 70) || (97 ≤ c.toNat && c.toNat ≤ 102)

/-- `char::is_digit(8)`. Nom and std, in combinators imported in `parser.rs` 3-14. -/
def isOct (c : Char) : Bool := 48 ≤ c.toNat && c.toNat ≤ 55

/-- `character::complete::multispace0`. Nom; imported in `parser.rs` 3-14. -/
def multispace0 : P Str := takeWhile0 isSpace
/-- `character::complete::multispace1`. Nom; imported in `parser.rs` 3-14. -/
def multispace1 : P Str := takeWhile1 isSpace
/-- `character::complete::alpha1`. Nom; imported in `parser.rs` 3-14. -/
def alpha1 : P Str := takeWhile1 isAlpha
/-- `character::complete::alphanumeric1`. Nom; imported in `parser.rs` 3-14. -/
def alphanumeric1 : P Str := takeWhile1 fun c => isAlpha c || isDigit c
/-- `character::complete::digit1`. Nom; imported in `parser.rs` 3-14. -/
def digit1 : P Str := takeWhile1 isDigit
/-- `character::complete::hex_digit1`. Nom; imported in `parser.rs` 3-14. -/
def hex_digit1 : P Str := takeWhile1 isHex
/-- `character::complete::oct_digit1`. Nom; imported in `parser.rs` 3-14. -/
def oct_digit1 : P Str := takeWhile1 isOct

/-- `character::complete::one_of`. Nom; imported in `parser.rs` 3-14. -/
def one_of (cs : Str) : P Char
  | [] => .err
  | c :: r => if cs.contains c then .ok c r else .err

/-- `character::complete::line_ending`: `"\n"` or `"\r\n"`. Nom; imported in `parser.rs` 3-14. -/
def line_ending : P Str := alt [tag ['\n'], tag ['\r', '\n']]

/-- `character::complete::not_line_ending`: up to the first CR or LF; a CR must be followed by LF.
Nom; imported in `parser.rs` 3-14. -/
def not_line_ending : P Str := fun i =>
  let a := i.takeWhile fun c => !(c == '\r' || c == '\n')
  let r := i.dropWhile fun c => !(c == '\r' || c == '\n')
  match r with
  | '\r' :: '\n' :: _ => .ok a r
  | '\r' :: _ => .err
  | _ => .ok a r

/-- The loop of `multi::many0` and `multi::many1`: repeat until the parser fails; an iteration that
consumes nothing is an error. The number bounds the iterations. Nom, in combinators imported in `parser.rs` 3-14. -/
def manyLoop {α : Type} (p : P α) : Nat → P (List α)
  | 0, _ => .out
  | n + 1, i =>
    match p i with
    | .err => .ok [] i
    | .out => .out
    | .ok a r =>
      if r.length = i.length then .err
      else
        match manyLoop p n r with
        | .ok as r' => .ok (a :: as) r'
        | .err => .err
        | .out => .out

/-- `multi::many0`. Nom; imported in `parser.rs` 3-14. -/
def many0 {α : Type} (p : P α) : P (List α) := fun i => manyLoop p (i.length + 1) i

/-- `multi::many1`. Nom; imported in `parser.rs` 3-14. -/
def many1 {α : Type} (p : P α) : P (List α) := p.bind fun a => (many0 p).bind fun as => P.pure (a :: as)

/-- The loop of `multi::separated_list1`: a separator not followed by an element is not consumed.
Nom, in combinators imported in `parser.rs` 3-14. -/
def sepLoop {α β : Type} (sep : P β) (p : P α) : Nat → P (List α)
  | 0, _ => .out
  | n + 1, i =>
    match sep i with
    | .err => .ok [] i
    | .out => .out
    | .ok _ r =>
      match p r with
      | .err => .ok [] i
      | .out => .out
      | .ok a r' =>
        if r'.length = i.length then .err
        else
          match sepLoop sep p n r' with
          | .ok as r'' => .ok (a :: as) r''
          | .err => .err
          | .out => .out

/-- The separators and elements after the first element. Nom, in combinators imported in `parser.rs` 3-14. -/
def sepTail {α β : Type} (sep : P β) (p : P α) : P (List α) := fun i =>
  sepLoop sep p (i.length + 1) i

/-- `multi::separated_list1`. Nom; imported in `parser.rs` 3-14. -/
def separated_list1 {α β : Type} (sep : P β) (p : P α) : P (List α) :=
  p.bind fun a => (sepTail sep p).bind fun as => P.pure (a :: as)

end Xdr.Rpcgen
