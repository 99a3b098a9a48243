import Verif.Proofs.Rfc
import Verif.Proofs.Align
import Verif.Proofs.DeBuilt
import Verif.Props.Sample
/-!
# C01 to C05, C08: encoding and decoding whole values

`toBytes env t v` is `to_bytes(&v)`, `fromBytes env n t b` is `from_bytes::<T>(b)` on a stack that
allows `n` nested calls (`Spec/Fits.lean` for `Fits` and `Val.depth`).
-/

namespace Xdr

/-- What `from_bytes` does with the outcome of the `Deserialize` impl. -/
theorem from_bytes_ok {α : Type} {d : De α} {b rest : Bytes} {v : α} (h : d b = .ok (v, rest)) :
    from_bytes d b = if rest = [] then .ok v else .err (.trailingData rest.length) := by
  unfold from_bytes
  rw [h]
  cases rest <;> simp

/-- C01. -/
theorem C01_roundtrip (env : Env) (t : Ty) (v : Val) (bs : Bytes) (n : Nat)
    (hfits : Fits env t v) (hdepth : v.depth < n)
    (h : toBytes env t v = .ok bs) : fromBytes env n t bs = .ok v := by
  have := roundtrip h hfits hdepth []
  rw [List.append_nil] at this
  simpa [fromBytes] using from_bytes_ok this

example : fromBytes Sample.env 6 Sample.ty Sample.bytes = .ok Sample.val :=
  C01_roundtrip _ _ _ _ _ Sample.fits_val (by decide +kernel) Sample.toBytes_val

/-- C02, for every `Serialize` impl. -/
theorem C02_aligned (s : SVal) (bs : Bytes) (h : to_bytes s = .ok bs) : 4 ∣ bs.length :=
  to_bytes_aligned s bs h

example : 4 ∣ ([0, 0, 0, 1, 97, 0, 0, 0] : Bytes).length :=
  C02_aligned (.str ['a']) _ (by decide +kernel)

/-- C03: within the length limits of XDR, `to_bytes` succeeds exactly on the values that stand for an
XDR value with an RFC 4506 encoding, and then returns exactly that encoding. -/
theorem C03_rfc4506 (env : Env) (t : Ty) (v : Val) (bs : Bytes)
    (hty : HasTy env t v) (hsmall : Small env t v) :
    toBytes env t v = .ok bs ↔ ∃ x, toXdr env t v = some x ∧ Rfc.encode x = some bs := by
  unfold HasTy at hty
  unfold toBytes
  cases hs : present env t v with
  | none => simp [hs] at hty
  | some s =>
    have hp := present_sound env t v s hs
    exact ⟨rfc_complete hp hsmall, fun ⟨_, hx, hb⟩ => rfc_sound hp hx hb⟩

/-- C03, without the length limits: a value whose XDR value has an RFC 4506 encoding is written
that way. -/
theorem C03_rfc4506_sound (env : Env) (t : Ty) (v : Val) (x : Rfc.XVal) (bs : Bytes)
    (hty : HasTy env t v) (hx : toXdr env t v = some x) (hbs : Rfc.encode x = some bs) :
    toBytes env t v = .ok bs := by
  unfold HasTy at hty
  unfold toBytes
  cases hs : present env t v with
  | none => simp [hs] at hty
  | some s => exact rfc_sound (present_sound env t v s hs) hx hbs

theorem Sample.small_val : Small Sample.env Sample.ty Sample.val := by
  simp [ty, val, list, Small, SmallEach, SmallEntries, SmallAll, env, utf8Bytes]
  decide

example : ∃ x, toXdr Sample.env Sample.ty Sample.val = some x ∧ Rfc.encode x = some Sample.bytes :=
  (C03_rfc4506 _ _ _ _ (by unfold HasTy; decide +kernel) Sample.small_val).mp Sample.toBytes_val

/-- C04: an encoding followed by anything decodes to the value and leaves what follows. -/
theorem C04_self_delimiting (env : Env) (t : Ty) (v : Val) (bs rest : Bytes) (n : Nat)
    (hfits : Fits env t v) (hdepth : v.depth < n) (h : toBytes env t v = .ok bs) :
    deTy env n t (bs ++ rest) = .ok (v, rest) :=
  roundtrip h hfits hdepth rest

/-- C04, values written one after the other are read back separately. -/
theorem C04_consecutive (env : Env) (t u : Ty) (v w : Val) (bs cs rest : Bytes) (n : Nat)
    (hv : Fits env t v) (hw : Fits env u w) (hdv : v.depth < n) (hdw : w.depth < n)
    (h : toBytes env t v = .ok bs) (h' : toBytes env u w = .ok cs) :
    (do let a ← deTy env n t; let b ← deTy env n u; pure (a, b)) (bs ++ cs ++ rest) =
      .ok ((v, w), rest) := by
  rw [List.append_assoc, M.bind_ok (roundtrip h hv hdv _), M.bind_ok (roundtrip h' hw hdw _)]
  rfl

example (rest : Bytes) : deTy Sample.env 6 Sample.ty (Sample.bytes ++ rest) =
    .ok (Sample.val, rest) :=
  C04_self_delimiting _ _ _ _ _ _ Sample.fits_val (by decide +kernel) Sample.toBytes_val

/-- C05. -/
theorem C05_trailing (env : Env) (t : Ty) (v : Val) (bs extra : Bytes) (n : Nat)
    (hfits : Fits env t v) (hdepth : v.depth < n) (hne : extra ≠ [])
    (h : toBytes env t v = .ok bs) :
    fromBytes env n t (bs ++ extra) = .err (.trailingData extra.length) := by
  simpa [hne, fromBytes] using from_bytes_ok (roundtrip h hfits hdepth extra)

example : fromBytes Sample.env 6 Sample.ty (Sample.bytes ++ [0, 7]) = .err (.trailingData 2) :=
  C05_trailing _ _ _ _ [0, 7] _ Sample.fits_val (by decide +kernel) (by simp) Sample.toBytes_val

/-- C08. -/
theorem C08_injective (env : Env) (t : Ty) (v w : Val) (bs : Bytes)
    (hv : Fits env t v) (hw : Fits env t w)
    (h : toBytes env t v = .ok bs) (h' : toBytes env t w = .ok bs) : v = w := by
  have e1 := C01_roundtrip env t v bs (v.depth + w.depth + 1) hv (by omega) h
  have e2 := C01_roundtrip env t w bs (v.depth + w.depth + 1) hw (by omega) h'
  rw [e1] at e2
  exact Res.ok.inj e2

/-- C08, prefix-freeness: no encoding is a proper prefix of another one of the same type. -/
theorem C08_prefix_free (env : Env) (t : Ty) (v w : Val) (bs extra : Bytes)
    (hv : Fits env t v) (hw : Fits env t w)
    (h : toBytes env t v = .ok bs) (h' : toBytes env t w = .ok (bs ++ extra)) :
    v = w ∧ extra = [] := by
  have e1 := roundtrip h hv (n := v.depth + w.depth + 1) (by omega) extra
  have e2 := roundtrip h' hw (n := v.depth + w.depth + 1) (by omega) []
  rw [List.append_nil, e1] at e2
  simpa using e2

example (w : Val) (hw : Fits Sample.env Sample.ty w)
    (h : toBytes Sample.env Sample.ty w = .ok Sample.bytes) : w = Sample.val :=
  C08_injective _ _ _ _ _ hw Sample.fits_val h Sample.toBytes_val

end Xdr
