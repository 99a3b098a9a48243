import Verif.Spec.Form
import Verif.Spec.Utf8
/-!
# Specification: which inputs a reader gives up on

`Stops env t b o` says that a reader of type `t` that is given the input `b` gives up, and how: with an
error, or with a panic. A table as in `Spec/Form.lean`, without the readers of the model.

Beside panics of what the user wrote there are three: the padding of a text is cut off, the user's code
names a variant that is not there, a variant of a derived reader has more than nine members beside its
index or discriminant. `undefined` is no program. -/

namespace Xdr.Wire

/-- How a reader gives up. -/
inductive Stop
  | err (e : Error)
  | panic (p : PanicSite)
deriving DecidableEq

/-- The result that is. -/
def Stop.res {α : Type} : Stop → Res α
  | .err e => .err e
  | .panic p => .panic p

/-- Types whose values begin with a word of four bytes. -/
def LedByWord (env : Env) : Ty → Prop
  | .bool | .i8 | .i16 | .i32 | .u8 | .u16 | .u32 | .f32 | .char => True
  | .string | .bytes | .opaqueVar | .option _ | .vec _ | .map _ _ | .signed32 _ _ => True
  | .named name => (∃ vars, env name = some (.enum vars)) ∨ ∃ vars impl, env name = some (.indexer vars impl)
  | _ => False

/-- `p` is not enough to pad `n` bytes: a whole padding would be longer. -/
def Short (n : Nat) (p : Bytes) : Prop := ∃ q, q ≠ [] ∧ Padding n (p ++ q)

mutual
/-- Reading `t` off the input `b` ends with `p`. -/
inductive Stops (env : Env) : Ty → Bytes → Stop → Prop
  /-- The input ends within the first word. -/
  | inWord {t : Ty} {b : Bytes} : LedByWord env t → b.length < 4 →
      Stops env t b (.err (.notEnoughData (4 - b.length)))
  /-- The input ends within a number of eight bytes. -/
  | inDword {t : Ty} {b : Bytes} : t = .i64 ∨ t = .u64 ∨ t = .f64 → b.length < 8 →
      Stops env t b (.err (.notEnoughData (8 - b.length)))
  /-- The word is the number of no character. -/
  | char {k : Nat} {rest : Bytes} : k < 2 ^ 32 → (∀ c : Char, c.toNat ≠ k) →
      Stops env .char (word k ++ rest) (.err .convert)
  /-- The input ends within the text. -/
  | stringCut {k : Nat} {b : Bytes} : k < 2 ^ 32 → b.length < k →
      Stops env .string (word k ++ b) (.err (.notEnoughData (k - b.length)))
  /-- The text is not UTF-8. -/
  | stringFaulty {b rest : Bytes} {e : Utf8Error} : b.length < 2 ^ 32 → Faulty b e →
      Stops env .string (word b.length ++ (b ++ rest)) (.err (.encoding e))
  | bytesCut {k : Nat} {b : Bytes} : k < 2 ^ 32 → b.length < k →
      Stops env .bytes (word k ++ b) (.err (.notEnoughData (k - b.length)))
  /-- Opaque data is read in units of four bytes: the number is what is missing from the unit in which
  the input ends. -/
  | opaqueVar {k : Nat} {b : Bytes} : k < 2 ^ 32 → b.length < 4 * ((k + 3) / 4) →
      Stops env .opaqueVar (word k ++ b) (.err (.notEnoughData (4 - b.length % 4)))
  | opaqueFixed {k : Nat} {b : Bytes} : b.length < 4 * ((k + 3) / 4) →
      Stops env (.opaqueFixed k) b (.err (.notEnoughData (4 - b.length % 4)))
  /-- The input ends within the padding. -/
  | string {s : List Char} {q : Bytes} : (utf8Bytes s).length < 2 ^ 32 → Short (utf8Bytes s).length q →
      Stops env .string (word (utf8Bytes s).length ++ (utf8Bytes s ++ q)) (.panic .paddingSlice)
  | bytes {b q : Bytes} : b.length < 2 ^ 32 → Short b.length q →
      Stops env .bytes (word b.length ++ (b ++ q)) (.panic .paddingSlice)
  | some {t : Ty} {k : Nat} {b : Bytes} {p : Stop} : k < 2 ^ 32 → k ≠ 0 → Stops env t b p →
      Stops env (.option t) (word k ++ b) p
  | vec {t : Ty} {k : Nat} {b : Bytes} {p : Stop} : k < 2 ^ 32 →
      StopsIn env (List.replicate k t) b p → Stops env (.vec t) (word k ++ b) p
  | array {t : Ty} {k : Nat} {b : Bytes} {p : Stop} : StopsIn env (List.replicate k t) b p →
      Stops env (.array k t) b p
  | tuple {ts : List Ty} {b : Bytes} {p : Stop} : StopsIn env ts b p →
      Stops env (.tuple ts) b p
  /-- `k` entries are keys and values in turn. -/
  | map {a c : Ty} {k : Nat} {b : Bytes} {p : Stop} : k < 2 ^ 32 →
      StopsIn env (List.replicate k [a, c]).flatten b p → Stops env (.map a c) (word k ++ b) p
  /-- The user's conversion panics. -/
  | signed32 {name : String} {impl : Signed32Impl} {k : Nat} {rest : Bytes}
      {p : PanicSite} : k < 2 ^ 32 → impl.try_from (Int32.ofNat k) = .panic p →
      Stops env (.signed32 name impl) (word k ++ rest) (.panic p)
  /-- The user's conversion fails. -/
  | signed32Err {name : String} {impl : Signed32Impl} {k : Nat} {rest : Bytes} {e : Error} :
      k < 2 ^ 32 → impl.try_from (Int32.ofNat k) = .err e →
      Stops env (.signed32 name impl) (word k ++ rest)
        (.err (.custom s!"Can not convert from {(Int32.ofNat k).toInt}"))
  /-- A name that nothing defines. -/
  | undefined {name : String} {b : Bytes} : env name = none → Stops env (.named name) b (.panic .illTyped)
  | newtypeStruct {name : String} {t : Ty} {b : Bytes} {p : Stop} :
      env name = some (.newtypeStruct t) → Stops env t b p → Stops env (.named name) b p
  | tupleStruct {name : String} {ts : List Ty} {b : Bytes} {p : Stop} :
      env name = some (.tupleStruct ts) → StopsIn env ts b p → Stops env (.named name) b p
  | struct {name : String} {fs : List (String × Ty)} {b : Bytes} {p : Stop} :
      env name = some (.struct fs) → StopsIn env (fs.map (·.2)) b p → Stops env (.named name) b p
  | enum {name vn : String} {vars : List (String × Shape)} {i : Nat} {sh : Shape} {b : Bytes}
      {p : Stop} : env name = some (.enum vars) → i < 2 ^ 31 → vars[i]? = some (vn, sh) →
      StopsIn env sh.types b p → Stops env (.named name) (word i ++ b) p
  /-- A word that is negative as an `i32`. -/
  | enumNegative {name : String} {vars : List (String × Shape)} {k : Nat} {rest : Bytes} :
      env name = some (.enum vars) → 2 ^ 31 ≤ k → k < 2 ^ 32 →
      Stops env (.named name) (word k ++ rest) (.err .convert)
  /-- A position no variant has. -/
  | enumUnknown {name : String} {vars : List (String × Shape)} {k : Nat} {rest : Bytes} :
      env name = some (.enum vars) → k < 2 ^ 31 → vars.length ≤ k →
      Stops env (.named name) (word k ++ rest) (.err (.custom
        s!"invalid value: integer `{k}`, expected variant index 0 <= i < {vars.length}"))
  /-- The user's `name_by_index` panics. -/
  | indexerUser {name : String} {vars : List (String × Option (List Ty))} {impl : IndexerImpl}
      {k : Nat} {rest : Bytes} {p : PanicSite} : env name = some (.indexer vars impl) → k < 2 ^ 32 →
      impl.name_by_index (Int32.ofNat k) = .panic p → Stops env (.named name) (word k ++ rest) (.panic p)
  /-- The user's `name_by_index` fails. -/
  | indexerErr {name : String} {vars : List (String × Option (List Ty))} {impl : IndexerImpl}
      {k : Nat} {rest : Bytes} {e : Error} : env name = some (.indexer vars impl) → k < 2 ^ 32 →
      impl.name_by_index (Int32.ofNat k) = .err e → Stops env (.named name) (word k ++ rest)
        (.err (.custom s!"Can not convert from {(Int32.ofNat k).toInt}"))
  /-- The user's `name_by_index` gives a name that no variant has. -/
  | indexerName {name vn : String} {vars : List (String × Option (List Ty))} {impl : IndexerImpl}
      {k : Nat} {rest : Bytes} : env name = some (.indexer vars impl) → k < 2 ^ 32 →
      impl.name_by_index (Int32.ofNat k) = .ok vn → (∀ x ∈ vars, x.1 ≠ vn) →
      Stops env (.named name) (word k ++ rest) (.panic .unimplemented)
  | indexer {name vn : String} {vars : List (String × Option (List Ty))} {impl : IndexerImpl}
      {k i : Nat} {fs : Option (List Ty)} {b : Bytes} {p : Stop} :
      env name = some (.indexer vars impl) → k < 2 ^ 32 →
      impl.name_by_index (Int32.ofNat k) = .ok vn → Called vars vn i fs →
      StopsIn env ((fs.getD []).take 9) b p → Stops env (.named name) (word k ++ b) p
  /-- The variant has more than nine members, and nine of them were read. -/
  | indexerMany {name vn : String} {vars : List (String × Option (List Ty))} {impl : IndexerImpl}
      {k i : Nat} {fs : Option (List Ty)} {vs : List Val} {b rest : Bytes} :
      env name = some (.indexer vars impl) → k < 2 ^ 32 →
      impl.name_by_index (Int32.ofNat k) = .ok vn → Called vars vn i fs → 9 < (fs.getD []).length →
      Forms env ((fs.getD []).take 9) vs b →
      Stops env (.named name) (word k ++ (b ++ rest)) (.panic .unwrapNone)
  | unionDisc {name : String} {disc : Ty} {vars : List (String × Option (List Ty))} {impl : UnionImpl}
      {b : Bytes} {p : Stop} : env name = some (.union disc vars impl) → Stops env disc b p →
      Stops env (.named name) b p
  /-- The user's `name_by_value` panics. -/
  | unionUser {name : String} {disc : Ty} {vars : List (String × Option (List Ty))} {impl : UnionImpl}
      {v : Val} {b rest : Bytes} {p : PanicSite} : env name = some (.union disc vars impl) →
      Form env disc v b → impl.name_by_value v = .panic p → Stops env (.named name) (b ++ rest) (.panic p)
  /-- The user's `name_by_value` fails. (The model leaves the value out of the message.) -/
  | unionErr {name : String} {disc : Ty} {vars : List (String × Option (List Ty))} {impl : UnionImpl}
      {v : Val} {b rest : Bytes} {e : Error} : env name = some (.union disc vars impl) →
      Form env disc v b → impl.name_by_value v = .err e →
      Stops env (.named name) (b ++ rest) (.err (.custom "Can not convert from value"))
  /-- The user's `name_by_value` gives a name that no variant has. -/
  | unionName {name vn : String} {disc : Ty} {vars : List (String × Option (List Ty))}
      {impl : UnionImpl} {v : Val} {b rest : Bytes} : env name = some (.union disc vars impl) →
      Form env disc v b → impl.name_by_value v = .ok vn → (∀ x ∈ vars, x.1 ≠ vn) →
      Stops env (.named name) (b ++ rest) (.panic .unimplemented)
  | union {name vn : String} {disc d0 : Ty} {vars : List (String × Option (List Ty))} {impl : UnionImpl}
      {i : Nat} {ts : List Ty} {v : Val} {b c : Bytes} {p : Stop} :
      env name = some (.union disc vars impl) → Form env disc v b → impl.name_by_value v = .ok vn →
      Called vars vn i (some (d0 :: ts)) → StopsIn env (ts.take 9) c p →
      Stops env (.named name) (b ++ c) p
  /-- The variant has more than nine members beside the discriminant, and nine of them were read. -/
  | unionMany {name vn : String} {disc d0 : Ty} {vars : List (String × Option (List Ty))}
      {impl : UnionImpl} {i : Nat} {ts : List Ty} {v : Val} {vs : List Val} {b c rest : Bytes} :
      env name = some (.union disc vars impl) → Form env disc v b → impl.name_by_value v = .ok vn →
      Called vars vn i (some (d0 :: ts)) → 9 < ts.length → Forms env (ts.take 9) vs c →
      Stops env (.named name) (b ++ (c ++ rest)) (.panic .unwrapNone)

/-- Reading values of the types `ts` one after the other gives up: some of them are there, the next
one does. -/
inductive StopsIn (env : Env) : List Ty → Bytes → Stop → Prop
  | here {t : Ty} {ts : List Ty} {b : Bytes} {p : Stop} : Stops env t b p →
      StopsIn env (t :: ts) b p
  | later {t : Ty} {ts : List Ty} {v : Val} {bs b : Bytes} {p : Stop} : Form env t v bs →
      StopsIn env ts b p → StopsIn env (t :: ts) (bs ++ b) p
end

end Xdr.Wire
