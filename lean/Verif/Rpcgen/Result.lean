import Verif.Rpcgen.Ast
/-!
# Results of the generator
-/

namespace Xdr.Rpcgen

/-- `rpcgen/src/error.rs` 5-10, without `TrailingData` (raised by `parse` only). The text of `Parse` is
`format!("{self:?}")` of the constant (`parser.rs` 68), so the constant stands for it. -/
inductive GenError where
  | notFound (name : Str)
  | notSupported
  | parse (c : Constant)
deriving DecidableEq, Repr, Inhabited

/-- The places at which the generator can panic. In `gen_code.rs`, at the lines cited at each use. -/
inductive GenPanic where
  /-- `declaration.name().unwrap()`, `gen_code.rs` 387, and `default_value.unwrap()`, 356 and 682. -/
  | unwrapNone
  /-- `format_ident!` with a text that is not an identifier. -/
  | badIdent (s : Str)
  /-- `end + 1` or `eindex + 1` beyond the type, with overflow checks (debug builds). -/
  | overflow
  /-- `unimplemented!()`, `gen_code.rs` 799 and 826. -/
  | unimplemented
deriving DecidableEq, Repr, Inhabited

/-- Outcome of a generator function. `depth` is not a return: the recursion bound was used up.
`Result<_, Error>` of `gen_code.rs`, with what Rust leaves implicit. -/
inductive GR (α : Type) where
  | ok (a : α)
  | err (e : GenError)
  | panic (p : GenPanic)
  | depth
deriving DecidableEq, Repr, Inhabited

namespace GR

/-- Plumbing: the `?` operator in `gen_code.rs`. -/
def bind {α β : Type} : GR α → (α → GR β) → GR β
  | .ok a, f => f a
  | .err e, _ => .err e
  | .panic p, _ => .panic p
  | .depth, _ => .depth

/-- Plumbing: `do` notation for `GR`. -/
instance : Monad GR where
  pure := GR.ok
  bind := GR.bind

/-- `Option::ok_or`. Std; `gen_code.rs` 63, 211, 388 and 889. -/
def okOr {α : Type} (o : Option α) (e : GenError) : GR α :=
  match o with
  | some a => .ok a
  | none => .err e

/-- `Result::or_else(|_| ..)`. Std; `gen_code.rs` 91. -/
def orElse {α : Type} (a b : GR α) : GR α :=
  match a with
  | .err _ => b
  | r => r

/-- A loop pushing one result per element, stopping at the first error or panic.
The loops of `gen_code.rs`, e.g. 186-198. -/
def mapM {α β : Type} (f : α → GR β) : List α → GR (List β)
  | [] => .ok []
  | a :: as => (f a).bind fun b => (mapM f as).bind fun bs => .ok (b :: bs)

theorem bind_eq_ok {α β : Type} {m : GR α} {f : α → GR β} {b : β} :
    m.bind f = .ok b ↔ ∃ a, m = .ok a ∧ f a = .ok b := by
  cases m <;> simp [bind]

theorem mapM_cons_ok {α β : Type} {f : α → GR β} {a : α} {as : List α} {l : List β} :
    mapM f (a :: as) = .ok l ↔ ∃ b bs, f a = .ok b ∧ mapM f as = .ok bs ∧ l = b :: bs := by
  simp only [mapM, bind_eq_ok, GR.ok.injEq]
  constructor
  · rintro ⟨b, h1, bs, h2, rfl⟩
    exact ⟨b, bs, h1, h2, rfl⟩
  · rintro ⟨b, bs, h1, h2, rfl⟩
    exact ⟨b, h1, bs, h2, rfl⟩

end GR

end Xdr.Rpcgen
