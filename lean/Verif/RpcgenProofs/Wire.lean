import Verif.Props.Codec
/-!
# Rust values standing for XDR values
-/

namespace Xdr

open Rfc (XVal)

/-- `v` of type `t` stands for the XDR value `x`: it is encoded like it, and meets the preconditions of
decoding. -/
structure Rep (env : Env) (t : Ty) (v : Val) (x : XVal) : Prop where
  hasTy : HasTy env t v
  fits : Fits env t v
  xdr : ∃ y, toXdr env t v = some y ∧ Rfc.encode y = Rfc.encode x

theorem Rep.write {env : Env} {t : Ty} {v : Val} {x : XVal} (h : Rep env t v x) {bs : Bytes}
    (hb : Rfc.encode x = some bs) : toBytes env t v = .ok bs := by
  obtain ⟨y, hy, he⟩ := h.xdr
  exact C03_rfc4506_sound env t v y bs h.hasTy hy (he.trans hb)

theorem Rep.read {env : Env} {t : Ty} {v : Val} {x : XVal} (h : Rep env t v x) {bs : Bytes}
    (hb : Rfc.encode x = some bs) {n : Nat} (hn : v.depth < n) : fromBytes env n t bs = .ok v :=
  C01_roundtrip env t v bs n h.fits hn (h.write hb)

theorem Rep.readWith {env : Env} {t : Ty} {v : Val} {x : XVal} (h : Rep env t v x) {bs : Bytes}
    (hb : Rfc.encode x = some bs) {n : Nat} (hn : v.depth < n) (rest : Bytes) :
    deTy env n t (bs ++ rest) = .ok (v, rest) :=
  C04_self_delimiting env t v bs rest n h.fits hn (h.write hb)

/-- A unit variant of an enum with serde's derives. -/
theorem rep_enum {env : Env} {name : String} {vars : List (String × Shape)}
    (henv : env name = some (.enum vars)) {i : Nat} {vn : String} (hi : vars[i]? = some (vn, .unit))
    (h32 : i < 2 ^ 32) : Rep env (.named name) (.variant i []) (.enum i) where
  hasTy := by simp [HasTy, present, henv, hi]
  fits := by simp [Fits, henv, hi]; omega
  xdr := ⟨.enum i, by simp [toXdr, henv, hi], rfl⟩

/-- A unit variant of an `XdrIndexer` enum. -/
theorem rep_indexer_unit {env : Env} {name : String} {vars : List (String × Option (List Ty))}
    {impl : IndexerImpl} (henv : env name = some (.indexer vars impl)) {i : Nat} {vn : String}
    (hi : vars[i]? = some (vn, none)) {k : Int32} (hk : impl.index i [] = .ok k)
    (hn : impl.name_by_index k = .ok vn) (hfirst : ∀ j < i, ∀ x, vars[j]? = some x → x.1 ≠ vn) :
    Rep env (.named name) (.variant i []) (.enum k.toInt) where
  hasTy := by simp [HasTy, present, henv, hi]
  fits := by
    simp only [Fits, henv, hi]
    exact ⟨⟨k, hk, hn⟩, hfirst, trivial⟩
  xdr := by
    refine ⟨.union (.enum k.toInt) .void, by simp [toXdr, henv, hi, hk], ?_⟩
    simp only [Rfc.encode]
    cases Rfc.signed 4 k.toInt <;> simp [Rfc.cat]

/-- A field with `signed32`. -/
theorem rep_signed32 {env : Env} {name : String} {vars : List (String × Shape)} {impl : Signed32Impl}
    (henv : env name = some (.enum vars)) {i : Nat} {vn : String} (hi : vars[i]? = some (vn, .unit))
    (hback : impl.try_from (impl.as_ref (.variant i [])) = .ok (.variant i [])) :
    Rep env (.signed32 name impl) (.variant i []) (.enum (impl.as_ref (.variant i [])).toInt) where
  hasTy := by simp [HasTy, present, henv, hi]
  fits := by simpa [Fits] using hback
  xdr := ⟨.enum (impl.as_ref (.variant i [])).toInt, by simp [toXdr, henv, hi], rfl⟩

end Xdr
