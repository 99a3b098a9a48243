import Verif.RpcgenProofs.Consistent
import Verif.Spec.AcceptedForm
import Verif.Props.Form
/-!
# Forms of the values of generated types
-/

namespace Xdr.Rpcgen

open Rfc (XVal)
open Wire (Form Forms Called)

theorem forms_length {env : Env} {ts : List Ty} {vs : List Val} {bs : Bytes} (h : Forms env ts vs bs) :
    ts.length = vs.length := by
  induction vs generalizing ts bs with
  | nil => cases h; rfl
  | cons v vs ih => cases h with | cons _ h => simp [ih h]

theorem form_struct {env : Env} {name : String} {fs : List (String × Ty)} (he : env name = some (.struct fs))
    {vs : List Val} {bs : Bytes} (h : Form env (.named name) (.seq vs) bs) : Forms env (fs.map (·.2)) vs bs := by
  cases h with
  | struct h1 h2 => rw [he] at h1; cases h1; exact h2
  | _ => simp_all

theorem form_enum {env : Env} {name : String} {vars : List (String × Shape)} (he : env name = some (.enum vars))
    {i : Nat} {vs : List Val} {bs : Bytes} (h : Form env (.named name) (.variant i vs) bs) :
    ∃ vn sh cs, i < 2 ^ 31 ∧ vars[i]? = some (vn, sh) ∧ Forms env sh.types vs cs ∧ bs = Wire.word i ++ cs := by
  cases h with
  | enum h1 h2 h3 h4 => rw [he] at h1; cases h1; exact ⟨_, _, _, h2, h3, h4, rfl⟩
  | _ => simp_all

theorem form_indexer {env : Env} {name : String} {vars : List (String × Option (List Ty))} {impl : IndexerImpl}
    (he : env name = some (.indexer vars impl)) {i : Nat} {vs : List Val} {bs : Bytes}
    (h : Form env (.named name) (.variant i vs) bs) :
    ∃ k vn fs cs, k < 2 ^ 32 ∧ impl.name_by_index (Int32.ofNat k) = .ok vn ∧ Called vars vn i fs ∧
      Forms env (fs.getD []) vs cs ∧ bs = Wire.word k ++ cs := by
  cases h with
  | indexer h1 h2 h3 h4 h5 h6 => rw [he] at h1; cases h1; exact ⟨_, _, _, _, h2, h3, h4, h6, rfl⟩
  | _ => simp_all

theorem form_union {env : Env} {name : String} {disc : Ty} {vars : List (String × Option (List Ty))}
    {impl : UnionImpl} (he : env name = some (.union disc vars impl)) {i : Nat} {v : Val} {vs : List Val}
    {bs : Bytes} (h : Form env (.named name) (.variant i (v :: vs)) bs) :
    ∃ vn d0 ts b cs, Form env disc v b ∧ impl.name_by_value v = .ok vn ∧ Called vars vn i (some (d0 :: ts)) ∧
      Forms env ts vs cs ∧ bs = b ++ cs := by
  cases h with
  | union h1 h2 h3 h4 h5 h6 => rw [he] at h1; cases h1; exact ⟨_, _, _, _, _, h2, h3, h4, h6, rfl⟩
  | _ => simp_all

theorem toInt_word {w : Nat} (hw : w < 2 ^ 32) :
    -2147483648 ≤ (Int32.ofNat w).toInt ∧ (Int32.ofNat w).toInt ≤ 2147483647 ∧
      (Int32.ofNat w).toInt % 4294967296 = w := by
  have h1 := Int32.le_toInt (Int32.ofNat w)
  have h2 := Int32.toInt_lt (Int32.ofNat w)
  refine ⟨by omega, by omega, ?_⟩
  rw [Int32.toInt_ofNat']
  simp only [Int.bmod, Int32.size]
  omega

/-- The encoding of a number is the word that is read as the number. -/
theorem encode_word {w : Nat} (hw : w < 2 ^ 32) :
    Rfc.encode (.enum (Int32.ofNat w).toInt) = some (Wire.word w) := by
  obtain ⟨h1, h2, h3⟩ := toInt_word hw
  simp only [Rfc.encode, Rfc.signed]
  rw [if_pos ⟨by omega, by omega⟩]
  simp only [Wire.word]
  congr 2
  have : (2 ^ (8 * 4) : Int) = 4294967296 := by decide
  rw [this, h3]
  rfl

theorem word_inj {a b : Nat} (ha : a < 2 ^ 32) (hb : b < 2 ^ 32) (h : Wire.word a = Wire.word b) : a = b := by
  obtain ⟨h1, h1'⟩ := Wire.reads_word ha
  obtain ⟨h2, h2'⟩ := Wire.reads_word hb
  have h1 := h1 []
  have h2 := h2 []
  rw [h, h2] at h1
  simp only [Res.ok.injEq, Prod.mk.injEq, and_true] at h1
  rw [← h1', ← h2', h1]

/-- What is encoded as a word is what is read from it. -/
theorem encode_word_eq {w : Nat} (hw : w < 2 ^ 32) {k : Int} (h : Rfc.encode (.enum k) = some (Wire.word w)) :
    (Int32.ofNat w).toInt = k := by
  obtain ⟨h1, h2, h3⟩ := toInt_word hw
  simp only [Rfc.encode, Rfc.signed] at h
  split at h
  · next hr =>
    simp only [Option.some.injEq] at h
    have : (2 ^ (8 * 4) : Int) = 4294967296 := by decide
    rw [this] at h
    have h4 := word_inj (by omega) hw h
    omega
  · cases h

theorem word_length (w : Nat) : (Wire.word w).length = 4 := by
  simp [Wire.word, Rfc.beBytes]

/-- The one form of a value that has one. -/
theorem rep_form {env : Env} {t : Ty} {v : Val} {x : XVal} (h : Rep env t v x) {b : Bytes}
    (hb : Rfc.encode x = some b) : Form env t v b := C84_written env t v b h.fits (h.write hb)

end Xdr.Rpcgen
