import Verif.Model.Types
import Verif.Spec.Classes
import Verif.Spec.Rfc4506
/-!
# Specification: which bytes stand for a value

`Form env t v bs` says that `bs` is one of the forms a reader takes for the value `v` of type `t`.
It is a table, one line per kind of type, written without the readers of the model. A kind whose
line leaves something free (a word of which only the low bits count, padding of any content, a
nonzero word of any value, a key given twice) has several forms for one value.

What a user writes by hand is passed on: `try_from`, `name_by_index` and `name_by_value`. -/

namespace Xdr.Wire

/-- `k` in four bytes, most significant first. -/
def word (k : Nat) : Bytes := Rfc.beBytes 4 k

/-- `k` in eight bytes, most significant first. -/
def dword (k : Nat) : Bytes := Rfc.beBytes 8 k

/-- What may follow `n` bytes of data: up to three bytes of any content, making the length a multiple
of four. -/
def Padding (n : Nat) (p : Bytes) : Prop := p.length < 4 ∧ (n + p.length) % 4 = 0

/-- `es` are the entries of a map after the entries `ps` were put into it: an entry with a new key is
added, an entry with a known key replaces the value. (The model lists a map in the order in which its
keys came.) -/
inductive Folded : List (Val × Val) → List (Val × Val) → Prop
  | nil : Folded [] []
  | fresh {ps es k v} : Folded ps es → (∀ e ∈ es, e.1 ≠ k) → Folded (ps ++ [(k, v)]) (es ++ [(k, v)])
  | again {ps es es' k v w} : Folded ps (es ++ (k, w) :: es') → (∀ e ∈ es, e.1 ≠ k) →
      Folded (ps ++ [(k, v)]) (es ++ (k, v) :: es')

/-- The variant called `name` is the `i`-th: no earlier one is called the same. -/
def Called {α : Type} (vars : List (String × α)) (name : String) (i : Nat) (a : α) : Prop :=
  vars[i]? = some (name, a) ∧ ∀ j < i, ∀ x, vars[j]? = some x → x.1 ≠ name

mutual
/-- `bs` is a form of the value `v` of type `t`. -/
inductive Form (env : Env) : Ty → Val → Bytes → Prop
  /-- Any word; all but zero are true. -/
  | bool {k : Nat} : k < 2 ^ 32 → Form env .bool (.bool (k != 0)) (word k)
  /-- Any word; its low eight bits count. -/
  | i8 {k : Nat} : k < 2 ^ 32 → Form env .i8 (.i8 (Int8.ofNat k)) (word k)
  /-- Any word; its low sixteen bits count. -/
  | i16 {k : Nat} : k < 2 ^ 32 → Form env .i16 (.i16 (Int16.ofNat k)) (word k)
  | i32 {k : Nat} : k < 2 ^ 32 → Form env .i32 (.i32 (Int32.ofNat k)) (word k)
  | i64 {k : Nat} : k < 2 ^ 64 → Form env .i64 (.i64 (Int64.ofNat k)) (dword k)
  /-- Any word; its low eight bits count. -/
  | u8 {k : Nat} : k < 2 ^ 32 → Form env .u8 (.u8 (UInt8.ofNat k)) (word k)
  /-- Any word; its low sixteen bits count. -/
  | u16 {k : Nat} : k < 2 ^ 32 → Form env .u16 (.u16 (UInt16.ofNat k)) (word k)
  | u32 {k : Nat} : k < 2 ^ 32 → Form env .u32 (.u32 (UInt32.ofNat k)) (word k)
  | u64 {k : Nat} : k < 2 ^ 64 → Form env .u64 (.u64 (UInt64.ofNat k)) (dword k)
  /-- The bits of the number. -/
  | f32 {k : Nat} : k < 2 ^ 32 → Form env .f32 (.f32 (UInt32.ofNat k)) (word k)
  | f64 {k : Nat} : k < 2 ^ 64 → Form env .f64 (.f64 (UInt64.ofNat k)) (dword k)
  /-- The number of a character, and nothing else. -/
  | char (c : Char) : Form env .char (.char c) (word c.toNat)
  /-- The number of bytes, the UTF-8 text, any padding. -/
  | string {s : List Char} {p : Bytes} : (utf8Bytes s).length < 2 ^ 32 →
      Padding (utf8Bytes s).length p →
      Form env .string (.str s) (word (utf8Bytes s).length ++ (utf8Bytes s ++ p))
  | bytes {b p : Bytes} : b.length < 2 ^ 32 → Padding b.length p →
      Form env .bytes (.bytes b) (word b.length ++ (b ++ p))
  | opaqueVar {b p : Bytes} : b.length < 2 ^ 32 → Padding b.length p →
      Form env .opaqueVar (.bytes b) (word b.length ++ (b ++ p))
  | opaqueFixed {b p : Bytes} : Padding b.length p → Form env (.opaqueFixed b.length) (.bytes b) (b ++ p)
  | unit : Form env .unit .unit []
  | none {t : Ty} : Form env (.option t) .none (word 0)
  /-- Any word but zero, then the value. -/
  | some {t : Ty} {v : Val} {k : Nat} {bs : Bytes} : k < 2 ^ 32 → k ≠ 0 → Form env t v bs →
      Form env (.option t) (.some v) (word k ++ bs)
  | vec {t : Ty} {k : Nat} {vs : List Val} {bs : Bytes} : k < 2 ^ 32 →
      Forms env (List.replicate k t) vs bs → Form env (.vec t) (.seq vs) (word k ++ bs)
  | array {t : Ty} {k : Nat} {vs : List Val} {bs : Bytes} : Forms env (List.replicate k t) vs bs →
      Form env (.array k t) (.seq vs) bs
  | tuple {ts : List Ty} {vs : List Val} {bs : Bytes} : Forms env ts vs bs →
      Form env (.tuple ts) (.seq vs) bs
  /-- The number of entries, then the entries; the last of the entries with one key counts. -/
  | map {a b : Ty} {ps es : List (Val × Val)} {bs : Bytes} : ps.length < 2 ^ 32 →
      Pairs env a b ps bs → Folded ps es → Form env (.map a b) (.map es) (word ps.length ++ bs)
  | signed32 {name : String} {impl : Signed32Impl} {k : Nat} {v : Val} : k < 2 ^ 32 →
      impl.try_from (Int32.ofNat k) = .ok v → Form env (.signed32 name impl) v (word k)
  | unitStruct {name : String} : env name = some .unitStruct → Form env (.named name) .unit []
  | newtypeStruct {name : String} {t : Ty} {v : Val} {bs : Bytes} :
      env name = some (.newtypeStruct t) → Form env t v bs → Form env (.named name) (.seq [v]) bs
  | tupleStruct {name : String} {ts : List Ty} {vs : List Val} {bs : Bytes} :
      env name = some (.tupleStruct ts) → Forms env ts vs bs → Form env (.named name) (.seq vs) bs
  | struct {name : String} {fs : List (String × Ty)} {vs : List Val} {bs : Bytes} :
      env name = some (.struct fs) → Forms env (fs.map (·.2)) vs bs →
      Form env (.named name) (.seq vs) bs
  /-- The position of the variant, then its members. -/
  | enum {name vn : String} {vars : List (String × Shape)} {i : Nat} {sh : Shape} {vs : List Val}
      {bs : Bytes} : env name = some (.enum vars) → i < 2 ^ 31 → vars[i]? = some (vn, sh) →
      Forms env sh.types vs bs → Form env (.named name) (.variant i vs) (word i ++ bs)
  /-- A number the user's code names a variant for, then the members of that variant, at most nine. -/
  | indexer {name vn : String} {vars : List (String × Option (List Ty))} {impl : IndexerImpl}
      {k i : Nat} {fs : Option (List Ty)} {vs : List Val} {bs : Bytes} :
      env name = some (.indexer vars impl) → k < 2 ^ 32 →
      impl.name_by_index (Int32.ofNat k) = .ok vn → Called vars vn i fs → (fs.getD []).length ≤ 9 →
      Forms env (fs.getD []) vs bs → Form env (.named name) (.variant i vs) (word k ++ bs)
  /-- A discriminant the user's code names a variant for, then the other members of that variant, at
  most nine; the discriminant is the first member. -/
  | union {name vn : String} {disc d0 : Ty} {vars : List (String × Option (List Ty))} {impl : UnionImpl}
      {i : Nat} {ts : List Ty} {v : Val} {vs : List Val} {bs cs : Bytes} :
      env name = some (.union disc vars impl) → Form env disc v bs → impl.name_by_value v = .ok vn →
      Called vars vn i (some (d0 :: ts)) → ts.length ≤ 9 → Forms env ts vs cs →
      Form env (.named name) (.variant i (v :: vs)) (bs ++ cs)
  /-- A variant without members loses the discriminant. -/
  | unionUnit {name vn : String} {disc : Ty} {vars : List (String × Option (List Ty))}
      {impl : UnionImpl} {i : Nat} {fs : Option (List Ty)} {v : Val} {bs : Bytes} :
      env name = some (.union disc vars impl) → Form env disc v bs → impl.name_by_value v = .ok vn →
      Called vars vn i fs → fs.getD [] = [] → Form env (.named name) (.variant i []) bs

/-- Forms of the values `vs`, one after the other. -/
inductive Forms (env : Env) : List Ty → List Val → Bytes → Prop
  | nil : Forms env [] [] []
  | cons {t : Ty} {ts : List Ty} {v : Val} {vs : List Val} {bs cs : Bytes} : Form env t v bs →
      Forms env ts vs cs → Forms env (t :: ts) (v :: vs) (bs ++ cs)

/-- Forms of keys and values in turn. -/
inductive Pairs (env : Env) : Ty → Ty → List (Val × Val) → Bytes → Prop
  | nil {a b : Ty} : Pairs env a b [] []
  | cons {a b : Ty} {k v : Val} {ps : List (Val × Val)} {bs cs ds : Bytes} : Form env a k bs →
      Form env b v cs → Pairs env a b ps ds → Pairs env a b ((k, v) :: ps) (bs ++ (cs ++ ds))
end

end Xdr.Wire
