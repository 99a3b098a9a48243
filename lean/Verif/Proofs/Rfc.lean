import Verif.Proofs.RoundTrip
import Verif.Spec.Denote
/-! # Lemmas: the serializer against RFC 4506 -/

namespace Xdr

open Rfc (XVal)

theorem beBytes4 (n : Nat) : Rfc.beBytes 4 n = be32 (UInt32.ofNat n) := by
  simp only [Rfc.beBytes, be32, List.nil_append, List.cons_append, UInt32.toNat_ofNat']
  congr 1
  · apply UInt8.toNat_inj.mp; simp only [UInt8.toNat_ofNat']; omega
  congr 1
  · apply UInt8.toNat_inj.mp; simp only [UInt8.toNat_ofNat']; omega
  congr 1
  · apply UInt8.toNat_inj.mp; simp only [UInt8.toNat_ofNat']; omega
  congr 1
  · apply UInt8.toNat_inj.mp; simp only [UInt8.toNat_ofNat']; omega

theorem beBytes8 (n : Nat) : Rfc.beBytes 8 n = be64 (UInt64.ofNat n) := by
  simp only [Rfc.beBytes, be64, List.nil_append, List.cons_append, UInt64.toNat_ofNat']
  congr 1
  · apply UInt8.toNat_inj.mp; simp only [UInt8.toNat_ofNat']; omega
  congr 1
  · apply UInt8.toNat_inj.mp; simp only [UInt8.toNat_ofNat']; omega
  congr 1
  · apply UInt8.toNat_inj.mp; simp only [UInt8.toNat_ofNat']; omega
  congr 1
  · apply UInt8.toNat_inj.mp; simp only [UInt8.toNat_ofNat']; omega
  congr 1
  · apply UInt8.toNat_inj.mp; simp only [UInt8.toNat_ofNat']; omega
  congr 1
  · apply UInt8.toNat_inj.mp; simp only [UInt8.toNat_ofNat']; omega
  congr 1
  · apply UInt8.toNat_inj.mp; simp only [UInt8.toNat_ofNat']; omega
  congr 1
  · apply UInt8.toNat_inj.mp; simp only [UInt8.toNat_ofNat']; omega

theorem unsigned4 (v : UInt32) : Rfc.unsigned 4 v.toNat = some (be32 v) := by
  have := v.toNat_lt
  rw [Rfc.unsigned, if_pos (by omega), beBytes4, UInt32.ofNat_toNat]

theorem unsigned4_nat {n : Nat} (h : n < 2 ^ 32) : Rfc.unsigned 4 n = some (lenBytes n) := by
  rw [Rfc.unsigned, if_pos (by omega), beBytes4]; rfl

theorem unsigned4_some {n : Nat} {bs : Bytes} (h : Rfc.unsigned 4 n = some bs) :
    n < 2 ^ 32 ∧ bs = lenBytes n := by
  have h' : n < 2 ^ 32 := by
    unfold Rfc.unsigned at h
    split at h
    · simpa using ‹n < _›
    · simp at h
  rw [unsigned4_nat h'] at h
  exact ⟨h', by simpa using h.symm⟩

theorem unsigned8 (v : UInt64) : Rfc.unsigned 8 v.toNat = some (be64 v) := by
  have := v.toNat_lt
  rw [Rfc.unsigned, if_pos (by omega), beBytes8, UInt64.ofNat_toNat]

theorem signed4 (v : Int32) : Rfc.signed 4 v.toInt = some (be32 v.toUInt32) := by
  have h1 := v.toInt_lt
  have h2 := v.le_toInt
  rw [Rfc.signed, if_pos (by constructor <;> omega), beBytes4]
  congr 2
  apply UInt32.toNat_inj.mp
  rw [UInt32.toNat_ofNat']
  have h3 : v.toInt = v.toUInt32.toBitVec.toInt := rfl
  rw [h3, BitVec.toInt_eq_toNat_cond]
  have h4 : v.toUInt32.toBitVec.toNat = v.toUInt32.toNat := rfl
  have h5 := v.toUInt32.toNat_lt
  rw [h4]
  split <;> omega

theorem signed4_zero : Rfc.signed 4 0 = some (be32 0) := signed4 0
theorem signed4_one : Rfc.signed 4 1 = some (be32 1) := signed4 1

theorem signed8 (v : Int64) : Rfc.signed 8 v.toInt = some (be64 v.toUInt64) := by
  have h1 := v.toInt_lt
  have h2 := v.le_toInt
  rw [Rfc.signed, if_pos (by constructor <;> omega), beBytes8]
  congr 2
  apply UInt64.toNat_inj.mp
  rw [UInt64.toNat_ofNat']
  have h3 : v.toInt = v.toUInt64.toBitVec.toInt := rfl
  rw [h3, BitVec.toInt_eq_toNat_cond]
  have h4 : v.toUInt64.toBitVec.toNat = v.toUInt64.toNat := rfl
  have h5 := v.toUInt64.toNat_lt
  rw [h4]
  split <;> omega

theorem signed4_nat (i : Nat) : Rfc.signed 4 (i : Int) =
    if i < 2 ^ 31 then some (be32 (UInt32.ofNat i)) else none := by
  rw [Rfc.signed]
  split
  · rename_i h
    rw [if_pos (by omega), beBytes4]
    congr 3
    omega
  · rename_i h
    rw [if_neg (by omega)]

theorem index_rfc {i : Nat} (hi : i < 2 ^ 32) {bs : Bytes} :
    Rfc.signed 4 (i : Int) = some bs ↔ indexBytes (UInt32.ofNat i) = .ok bs := by
  rw [signed4_nat, indexBytes]
  have e : (UInt32.ofNat i).toNat = i := by rw [UInt32.toNat_ofNat', Nat.mod_eq_of_lt hi]
  rw [e]
  split <;> simp

theorem zeroPad_eq (v : Bytes) : Rfc.zeroPad v = v ++ List.replicate (padLen v.length) 0 := rfl

theorem cat_some {a b : Option Bytes} {bs : Bytes} (h : Rfc.cat a b = some bs) :
    ∃ x y, a = some x ∧ b = some y ∧ bs = x ++ y := by
  cases a <;> cases b <;> simp_all [Rfc.cat]

theorem opaque_rfc {v bs : Bytes} :
    Rfc.cat (Rfc.unsigned 4 v.length) (some (Rfc.zeroPad v)) = some bs ↔
      v.length < 2 ^ 32 ∧ bs = opaqueBytes v := by
  constructor
  · intro h
    obtain ⟨x, y, h1, h2, rfl⟩ := cat_some h
    obtain ⟨h3, rfl⟩ := unsigned4_some h1
    simp only [Option.some.injEq] at h2
    subst h2
    exact ⟨h3, rfl⟩
  · rintro ⟨h, rfl⟩
    rw [unsigned4_nat h]; rfl

theorem int8_toInt32 (v : Int8) : v.toInt32.toInt = v.toInt := by simp
theorem int16_toInt32 (v : Int16) : v.toInt32.toInt = v.toInt := by simp

theorem toXdrEach_length {env : Env} {ts : List Ty} {vs : List Val} {xs : List XVal}
    (h : toXdrEach env ts vs = some xs) : vs.length = xs.length := by
  induction vs generalizing ts xs with
  | nil => cases ts <;> simp [toXdrEach] at h; subst h; rfl
  | cons v vs ih =>
    cases ts with
    | nil => simp [toXdrEach] at h
    | cons t ts =>
      rw [toXdrEach] at h
      split at h <;> simp only [Option.some.injEq, reduceCtorEq] at h
      subst h
      simp [ih ‹_›]

theorem toXdrAll_length {env : Env} {t : Ty} {vs : List Val} {xs : List XVal}
    (h : toXdrAll env t vs = some xs) : vs.length = xs.length := by
  induction vs generalizing xs with
  | nil => simp [toXdrAll] at h; subst h; rfl
  | cons v vs ih =>
    rw [toXdrAll] at h
    split at h <;> simp only [Option.some.injEq, reduceCtorEq] at h
    subst h
    simp [ih ‹_›]

theorem toXdrEntries_length {env : Env} {k t : Ty} {es : List (Val × Val)} {xs : List XVal}
    (h : toXdrEntries env k t es = some xs) : es.length = xs.length := by
  induction es generalizing xs with
  | nil => simp [toXdrEntries] at h; subst h; rfl
  | cons e es ih =>
    obtain ⟨a, b⟩ := e
    rw [toXdrEntries] at h
    split at h <;> simp only [Option.some.injEq, reduceCtorEq] at h
    subst h
    simp [ih ‹_›]

theorem Res.cat_ok {a b : Res Bytes} {x y : Bytes} (h1 : a = .ok x) (h2 : b = .ok y) :
    a.cat b = .ok (x ++ y) := by subst h1; subst h2; rfl

mutual
/-- If the RFC defines an encoding, `to_bytes` produces it. -/
theorem rfc_sound {env : Env} {t : Ty} {v : Val} {s : SVal} :
    Pres env t v s → ∀ {x : XVal} {bs : Bytes}, toXdr env t v = some x → Rfc.encode x = some bs →
      to_bytes s = .ok bs := by
  intro hp x bs hx hb
  rw [to_bytes_node]
  match hp with
  | .bool v =>
    simp only [toXdr, Option.some.injEq] at hx; subst hx
    simp only [Rfc.encode] at hb
    simp only [nodeBytes]
    cases v
    · have := signed4_zero
      simp_all
    · have := signed4_one
      simp_all
  | .i8 v =>
    simp only [toXdr, Option.some.injEq] at hx; subst hx
    simp only [Rfc.encode, ← int8_toInt32, signed4, Option.some.injEq] at hb; subst hb; rfl
  | .i16 v =>
    simp only [toXdr, Option.some.injEq] at hx; subst hx
    simp only [Rfc.encode, ← int16_toInt32, signed4, Option.some.injEq] at hb; subst hb; rfl
  | .i32 v =>
    simp only [toXdr, Option.some.injEq] at hx; subst hx
    simp only [Rfc.encode, signed4, Option.some.injEq] at hb; subst hb; rfl
  | .i64 v =>
    simp only [toXdr, Option.some.injEq] at hx; subst hx
    simp only [Rfc.encode, signed8, Option.some.injEq] at hb; subst hb; rfl
  | .u8 v =>
    simp only [toXdr, Option.some.injEq] at hx; subst hx
    simp only [Rfc.encode, ← UInt8.toNat_toUInt32, unsigned4, Option.some.injEq] at hb; subst hb; rfl
  | .u16 v =>
    simp only [toXdr, Option.some.injEq] at hx; subst hx
    simp only [Rfc.encode, ← UInt16.toNat_toUInt32, unsigned4, Option.some.injEq] at hb; subst hb; rfl
  | .u32 v =>
    simp only [toXdr, Option.some.injEq] at hx; subst hx
    simp only [Rfc.encode, unsigned4, Option.some.injEq] at hb; subst hb; rfl
  | .u64 v =>
    simp only [toXdr, Option.some.injEq] at hx; subst hx
    simp only [Rfc.encode, unsigned8, Option.some.injEq] at hb; subst hb; rfl
  | .f32 v =>
    simp only [toXdr, Option.some.injEq] at hx; subst hx
    simp only [Rfc.encode, unsigned4, Option.some.injEq] at hb; subst hb; rfl
  | .f64 v =>
    simp only [toXdr, Option.some.injEq] at hx; subst hx
    simp only [Rfc.encode, unsigned8, Option.some.injEq] at hb; subst hb; rfl
  | .char v =>
    simp only [toXdr, Option.some.injEq] at hx; subst hx
    have e : v.toNat = v.val.toNat := rfl
    simp only [Rfc.encode, e, unsigned4, Option.some.injEq] at hb; subst hb; rfl
  | .string v =>
    simp only [toXdr, Option.some.injEq] at hx; subst hx
    simp only [Rfc.encode] at hb
    rw [(opaque_rfc.mp hb).2]; rfl
  | .bytes v =>
    simp only [toXdr, Option.some.injEq] at hx; subst hx
    simp only [Rfc.encode] at hb
    rw [(opaque_rfc.mp hb).2]; rfl
  | .none t =>
    simp only [toXdr, Option.some.injEq] at hx; subst hx
    have := signed4_zero
    simp only [Rfc.encode] at hb
    simp only [nodeBytes]
    simp_all
  | .some h =>
    simp only [toXdr, Option.map_eq_some_iff] at hx
    obtain ⟨x', hx', rfl⟩ := hx
    simp only [Rfc.encode] at hb
    obtain ⟨b1, b2, h1, h2, rfl⟩ := cat_some hb
    have := signed4_one
    simp only [nodeBytes]
    exact Res.cat_ok (by simp_all) (rfc_sound h hx' h2)
  | .unit =>
    simp only [toXdr, Option.some.injEq] at hx; subst hx
    simp only [Rfc.encode, Option.some.injEq] at hb; subst hb; rfl
  | .vec h =>
    simp only [toXdr, Option.map_eq_some_iff] at hx
    obtain ⟨xs, hx', rfl⟩ := hx
    simp only [Rfc.encode] at hb
    obtain ⟨b1, b2, h1, h2, rfl⟩ := cat_some hb
    obtain ⟨h3, rfl⟩ := unsigned4_some h1
    rw [← toXdrAll_length hx']
    simp only [nodeBytes, countBytes]
    exact Res.cat_ok rfl (rfcAll_sound h hx' h2)
  | .array h =>
    simp only [toXdr, if_true, Option.map_eq_some_iff] at hx
    obtain ⟨xs, hx', rfl⟩ := hx
    simp only [Rfc.encode] at hb
    simp only [nodeBytes]
    exact rfcAll_sound h hx' hb
  | .tuple h =>
    simp only [toXdr, Option.map_eq_some_iff] at hx
    obtain ⟨xs, hx', rfl⟩ := hx
    simp only [Rfc.encode] at hb
    simp only [nodeBytes]
    exact rfcEach_sound h hx' hb
  | .map hdist h =>
    simp only [toXdr, hdist, if_true, Option.map_eq_some_iff] at hx
    obtain ⟨xs, hx', rfl⟩ := hx
    simp only [Rfc.encode] at hb
    obtain ⟨b1, b2, h1, h2, rfl⟩ := cat_some hb
    obtain ⟨h3, rfl⟩ := unsigned4_some h1
    rw [← toXdrEntries_length hx']
    simp only [nodeBytes, countBytes]
    exact Res.cat_ok rfl (rfcEntries_sound h hx' h2)
  | .opaqueFixed v =>
    simp only [toXdr, if_true, Option.some.injEq] at hx; subst hx
    simp only [Rfc.encode, Option.some.injEq] at hb; subst hb
    rw [← to_bytes_node, to_bytes_fixed]; rfl
  | .opaqueVar v =>
    simp only [toXdr, Option.some.injEq] at hx; subst hx
    simp only [Rfc.encode] at hb
    rw [(opaque_rfc.mp hb).2]
    rw [← to_bytes_node, to_bytes_variable]
  | .signed32 he hv =>
    simp only [toXdr, he, hv, Option.some.injEq] at hx; subst hx
    simp only [Rfc.encode, signed4, Option.some.injEq] at hb; subst hb; rfl
  | .unitStruct he =>
    simp only [toXdr, he, Option.some.injEq] at hx; subst hx
    simp only [Rfc.encode, Option.some.injEq] at hb; subst hb; rfl
  | .newtypeStruct he h =>
    simp only [toXdr, he, Option.map_eq_some_iff] at hx
    obtain ⟨x', hx', rfl⟩ := hx
    simp only [Rfc.encode, Rfc.encodeAll] at hb
    obtain ⟨b1, b2, h1, h2, rfl⟩ := cat_some hb
    simp only [Option.some.injEq] at h2; subst h2
    simp only [nodeBytes, List.append_nil]
    exact rfc_sound h hx' h1
  | .tupleStruct he h =>
    simp only [toXdr, he, Option.map_eq_some_iff] at hx
    obtain ⟨xs, hx', rfl⟩ := hx
    simp only [Rfc.encode] at hb
    simp only [nodeBytes]
    exact rfcEach_sound h hx' hb
  | .struct he h =>
    simp only [toXdr, he, Option.map_eq_some_iff] at hx
    obtain ⟨xs, hx', rfl⟩ := hx
    simp only [Rfc.encode] at hb
    simp only [nodeBytes]
    rw [bytesFields_zip _ _ (by simpa using h.length.2)]
    exact rfcEach_sound h hx' hb
  | .enumUnit he hv =>
    simp only [toXdr, he, hv, Option.some.injEq] at hx; subst hx
    simp only [Rfc.encode] at hb
    simp only [nodeBytes]
    exact (index_rfc (by
      rw [signed4_nat] at hb
      split at hb
      · omega
      · simp at hb)).mp hb
  | .enumNewtype he hv h =>
    simp only [toXdr, he, hv, Option.map_eq_some_iff] at hx
    obtain ⟨x', hx', rfl⟩ := hx
    simp only [Rfc.encode] at hb
    obtain ⟨b1, b2, h1, h2, rfl⟩ := cat_some hb
    simp only [nodeBytes]
    exact Res.cat_ok ((index_rfc (by
      rw [signed4_nat] at h1
      split at h1
      · omega
      · simp at h1)).mp h1) (rfc_sound h hx' h2)
  | .enumTuple he hv h =>
    simp only [toXdr, he, hv, Option.map_eq_some_iff] at hx
    obtain ⟨x', hx', rfl⟩ := hx
    simp only [Rfc.encode] at hb
    obtain ⟨b1, b2, h1, h2, rfl⟩ := cat_some hb
    simp only [nodeBytes]
    exact Res.cat_ok ((index_rfc (by
      rw [signed4_nat] at h1
      split at h1
      · omega
      · simp at h1)).mp h1) (rfcEach_sound h hx' h2)
  | .enumStruct he hv h =>
    simp only [toXdr, he, hv, Option.map_eq_some_iff] at hx
    obtain ⟨x', hx', rfl⟩ := hx
    simp only [Rfc.encode] at hb
    obtain ⟨b1, b2, h1, h2, rfl⟩ := cat_some hb
    simp only [nodeBytes]
    rw [bytesFields_zip _ _ (by simpa using h.length.2)]
    exact Res.cat_ok ((index_rfc (by
      rw [signed4_nat] at h1
      split at h1
      · omega
      · simp at h1)).mp h1) (rfcEach_sound h hx' h2)
  | .indexerUnit (impl := impl) (i := i) he hv =>
    simp only [toXdr, he] at hx
    split at hx <;> simp_all only [Option.some.injEq, reduceCtorEq, List.isEmpty_nil, if_true,
      Prod.mk.injEq, and_false]
    subst hx
    simp only [Rfc.encode, signed4] at hb
    obtain ⟨b1, b2, h1, h2, rfl⟩ := cat_some hb
    simp only [Option.some.injEq] at h1 h2; subst h1; subst h2
    simp only [SVal.ofUser, nodeBytes, bytesList_cons, to_bytes_node, bytesList_nil]
    rfl
  | .indexer he hv h =>
    simp only [toXdr, he, hv] at hx
    split at hx <;> try simp_all only [Option.some.injEq, reduceCtorEq, Prod.mk.injEq, and_false]
    rename_i heq
    obtain ⟨_, rfl⟩ := heq
    simp only [Option.map_eq_some_iff] at hx
    obtain ⟨xs, hx', rfl⟩ := hx
    simp only [Rfc.encode, signed4] at hb
    obtain ⟨b1, b2, h1, h2, rfl⟩ := cat_some hb
    simp only [Option.some.injEq] at h1; subst h1
    simp only [SVal.ofUser, nodeBytes, bytesList_cons]
    refine Res.cat_ok (by rw [to_bytes_node]; rfl) (rfcEach_sound h hx' h2)
  | .unionUnit he hv =>
    simp only [toXdr, he, hv, List.isEmpty_nil, if_true, Option.some.injEq] at hx
    subst hx
    simp only [Rfc.encode, Option.some.injEq] at hb; subst hb
    rfl
  | .union he hv h =>
    simp only [toXdr, he, hv] at hx
    simp only [nodeBytes]
    split at hx <;> simp only [Option.some.injEq, reduceCtorEq] at hx
    · rename_i hx'
      subst hx
      simp only [Rfc.encode] at hb
      exact rfcEach_sound h hx' (by simpa only [Rfc.encodeAll] using hb)
    · rename_i hx'
      subst hx
      simp only [Rfc.encode] at hb
      exact rfcEach_sound h hx' (by simpa only [Rfc.encodeAll] using hb)

theorem rfcAll_sound {env : Env} {t : Ty} {vs : List Val} {ss : List SVal} :
    PresAll env t vs ss → ∀ {xs : List XVal} {bs : Bytes}, toXdrAll env t vs = some xs →
      Rfc.encodeAll xs = some bs → bytesList ss = .ok bs := by
  intro hp xs bs hx hb
  match hp with
  | .nil _ =>
    simp only [toXdrAll, Option.some.injEq] at hx; subst hx
    simp only [Rfc.encodeAll, Option.some.injEq] at hb; subst hb; rfl
  | .cons h hs =>
    simp only [toXdrAll] at hx
    split at hx <;> simp only [Option.some.injEq, reduceCtorEq] at hx
    subst hx
    simp only [Rfc.encodeAll] at hb
    obtain ⟨b1, b2, h1, h2, rfl⟩ := cat_some hb
    rw [bytesList_cons]
    exact Res.cat_ok (rfc_sound h ‹_› h1) (rfcAll_sound hs ‹_› h2)

theorem rfcEach_sound {env : Env} {ts : List Ty} {vs : List Val} {ss : List SVal} :
    PresEach env ts vs ss → ∀ {xs : List XVal} {bs : Bytes}, toXdrEach env ts vs = some xs →
      Rfc.encodeAll xs = some bs → bytesList ss = .ok bs := by
  intro hp xs bs hx hb
  match hp with
  | .nil =>
    simp only [toXdrEach, Option.some.injEq] at hx; subst hx
    simp only [Rfc.encodeAll, Option.some.injEq] at hb; subst hb; rfl
  | .cons h hs =>
    simp only [toXdrEach] at hx
    split at hx <;> simp only [Option.some.injEq, reduceCtorEq] at hx
    subst hx
    simp only [Rfc.encodeAll] at hb
    obtain ⟨b1, b2, h1, h2, rfl⟩ := cat_some hb
    rw [bytesList_cons]
    exact Res.cat_ok (rfc_sound h ‹_› h1) (rfcEach_sound hs ‹_› h2)

theorem rfcEntries_sound {env : Env} {k t : Ty} {es : List (Val × Val)} {ss : List (SVal × SVal)} :
    PresEntries env k t es ss → ∀ {xs : List XVal} {bs : Bytes}, toXdrEntries env k t es = some xs →
      Rfc.encodeAll xs = some bs → bytesEntries ss = .ok bs := by
  intro hp xs bs hx hb
  match hp with
  | .nil _ _ =>
    simp only [toXdrEntries, Option.some.injEq] at hx; subst hx
    simp only [Rfc.encodeAll, Option.some.injEq] at hb; subst hb; rfl
  | .cons ha hb' hs =>
    simp only [toXdrEntries] at hx
    split at hx <;> simp only [Option.some.injEq, reduceCtorEq] at hx
    subst hx
    rename_i hx1 hx2 hx3
    simp only [Rfc.encodeAll, Rfc.encode] at hb
    obtain ⟨b1, b2, h1, h2, rfl⟩ := cat_some hb
    obtain ⟨b3, b4, h3, h4, rfl⟩ := cat_some h1
    obtain ⟨b5, b6, h5, h6, rfl⟩ := cat_some h4
    simp only [Option.some.injEq] at h6; subst h6
    simp only [bytesEntries, List.map_cons, Res.concat, List.append_nil]
    exact Res.cat_ok (Res.cat_ok (rfc_sound ha hx1 h3) (rfc_sound hb' hx2 h5))
      (rfcEntries_sound hs hx3 h2)
end

theorem cat_ok {a b : Option Bytes} {x y : Bytes} (h1 : a = some x) (h2 : b = some y) :
    Rfc.cat a b = some (x ++ y) := by subst h1; subst h2; rfl

theorem ofUser_ok {r : Res Int32} {k : Int32 → SVal} {bs : Bytes}
    (h : nodeBytes (SVal.ofUser r k) = .ok bs) : ∃ idx, r = .ok idx := by
  cases r with
  | ok i => exact ⟨i, rfl⟩
  | _ => simp [SVal.ofUser, nodeBytes] at h

mutual
/-- Whatever `to_bytes` produces is the RFC encoding. -/
theorem rfc_complete {env : Env} {t : Ty} {v : Val} {s : SVal} :
    Pres env t v s → ∀ {bs : Bytes}, Small env t v → to_bytes s = .ok bs →
      ∃ x, toXdr env t v = some x ∧ Rfc.encode x = some bs := by
  intro hp bs hf hb
  rw [to_bytes_node] at hb
  match hp with
  | .bool v =>
    simp only [nodeBytes, Res.ok.injEq] at hb; subst hb
    refine ⟨_, by (simp only [toXdr]; rfl), ?_⟩
    cases v
    · exact signed4_zero
    · exact signed4_one
  | .i8 v =>
    simp only [nodeBytes, Res.ok.injEq] at hb; subst hb
    exact ⟨_, by (simp only [toXdr]; rfl), by simp only [Rfc.encode, ← int8_toInt32, signed4]⟩
  | .i16 v =>
    simp only [nodeBytes, Res.ok.injEq] at hb; subst hb
    exact ⟨_, by (simp only [toXdr]; rfl), by simp only [Rfc.encode, ← int16_toInt32, signed4]⟩
  | .i32 v =>
    simp only [nodeBytes, Res.ok.injEq] at hb; subst hb
    exact ⟨_, by (simp only [toXdr]; rfl), by simp only [Rfc.encode, signed4]⟩
  | .i64 v =>
    simp only [nodeBytes, Res.ok.injEq] at hb; subst hb
    exact ⟨_, by (simp only [toXdr]; rfl), by simp only [Rfc.encode, signed8]⟩
  | .u8 v =>
    simp only [nodeBytes, Res.ok.injEq] at hb; subst hb
    exact ⟨_, by (simp only [toXdr]; rfl), by simp only [Rfc.encode, ← UInt8.toNat_toUInt32, unsigned4]⟩
  | .u16 v =>
    simp only [nodeBytes, Res.ok.injEq] at hb; subst hb
    exact ⟨_, by (simp only [toXdr]; rfl), by simp only [Rfc.encode, ← UInt16.toNat_toUInt32, unsigned4]⟩
  | .u32 v =>
    simp only [nodeBytes, Res.ok.injEq] at hb; subst hb
    exact ⟨_, by (simp only [toXdr]; rfl), by simp only [Rfc.encode, unsigned4]⟩
  | .u64 v =>
    simp only [nodeBytes, Res.ok.injEq] at hb; subst hb
    exact ⟨_, by (simp only [toXdr]; rfl), by simp only [Rfc.encode, unsigned8]⟩
  | .f32 v =>
    simp only [nodeBytes, Res.ok.injEq] at hb; subst hb
    exact ⟨_, by (simp only [toXdr]; rfl), by simp only [Rfc.encode, unsigned4]⟩
  | .f64 v =>
    simp only [nodeBytes, Res.ok.injEq] at hb; subst hb
    exact ⟨_, by (simp only [toXdr]; rfl), by simp only [Rfc.encode, unsigned8]⟩
  | .char v =>
    simp only [nodeBytes, Res.ok.injEq] at hb; subst hb
    have e : v.toNat = v.val.toNat := rfl
    exact ⟨_, by (simp only [toXdr]; rfl), by simp only [Rfc.encode, e, unsigned4]⟩
  | .string v =>
    simp only [nodeBytes, Res.ok.injEq] at hb; subst hb
    simp only [Small] at hf
    exact ⟨_, by (simp only [toXdr]; rfl), by simp only [Rfc.encode]; exact opaque_rfc.mpr ⟨hf, rfl⟩⟩
  | .bytes v =>
    simp only [nodeBytes, Res.ok.injEq] at hb; subst hb
    simp only [Small] at hf
    exact ⟨_, by (simp only [toXdr]; rfl), by simp only [Rfc.encode]; exact opaque_rfc.mpr ⟨hf, rfl⟩⟩
  | .none t =>
    simp only [nodeBytes, Res.ok.injEq] at hb; subst hb
    exact ⟨_, by (simp only [toXdr]; rfl), by simp only [Rfc.encode]; exact signed4_zero⟩
  | .some h =>
    simp only [nodeBytes] at hb
    obtain ⟨b1, b2, h1, h2, rfl⟩ := Res.cat_eq_ok hb
    simp only [Res.ok.injEq] at h1; subst h1
    simp only [Small] at hf
    obtain ⟨x, hx, he⟩ := rfc_complete h hf h2
    exact ⟨_, by (simp only [toXdr, hx, Option.map_some]; rfl), by simp only [Rfc.encode]; exact cat_ok signed4_one he⟩
  | .unit =>
    simp only [nodeBytes, Res.ok.injEq] at hb; subst hb
    exact ⟨_, by (simp only [toXdr]; rfl), rfl⟩
  | .vec h =>
    simp only [nodeBytes] at hb
    obtain ⟨b1, b2, h1, h2, rfl⟩ := Res.cat_eq_ok hb
    simp only [countBytes, Res.ok.injEq] at h1; subst h1
    simp only [Small] at hf
    obtain ⟨xs, hx, he⟩ := rfcAll_complete h hf.2 h2
    refine ⟨_, by (simp only [toXdr, hx, Option.map_some]; rfl), ?_⟩
    rw [Rfc.encode, ← toXdrAll_length hx]
    exact cat_ok (unsigned4_nat hf.1) he
  | .array h =>
    simp only [nodeBytes] at hb
    simp only [Small] at hf
    obtain ⟨xs, hx, he⟩ := rfcAll_complete h hf hb
    exact ⟨_, by (simp only [toXdr, hx, Option.map_some, if_true]; rfl), by simp only [Rfc.encode]; exact he⟩
  | .tuple h =>
    simp only [nodeBytes] at hb
    simp only [Small] at hf
    obtain ⟨xs, hx, he⟩ := rfcEach_complete h hf hb
    exact ⟨_, by (simp only [toXdr, hx, Option.map_some]; rfl), by simp only [Rfc.encode]; exact he⟩
  | .map hdist h =>
    simp only [nodeBytes] at hb
    obtain ⟨b1, b2, h1, h2, rfl⟩ := Res.cat_eq_ok hb
    simp only [countBytes, Res.ok.injEq] at h1; subst h1
    simp only [Small] at hf
    obtain ⟨xs, hx, he⟩ := rfcEntries_complete h hf.2 h2
    refine ⟨_, by (simp only [toXdr, hdist, hx, Option.map_some, if_true]; rfl), ?_⟩
    rw [Rfc.encode, ← toXdrEntries_length hx]
    exact cat_ok (unsigned4_nat hf.1) he
  | .opaqueFixed v =>
    rw [← to_bytes_node, to_bytes_fixed, Res.ok.injEq] at hb; subst hb
    exact ⟨_, by (simp only [toXdr, if_true]; rfl), rfl⟩
  | .opaqueVar v =>
    rw [← to_bytes_node, to_bytes_variable, Res.ok.injEq] at hb; subst hb
    simp only [Small] at hf
    exact ⟨_, by (simp only [toXdr]; rfl), by simp only [Rfc.encode]; exact opaque_rfc.mpr ⟨hf, rfl⟩⟩
  | .signed32 he hv =>
    simp only [signed32_serialize, nodeBytes, Res.ok.injEq] at hb; subst hb
    exact ⟨_, by (simp only [toXdr, he, hv]; rfl), by simp only [Rfc.encode, signed4]⟩
  | .unitStruct he =>
    simp only [nodeBytes, Res.ok.injEq] at hb; subst hb
    exact ⟨_, by (simp only [toXdr, he]; rfl), rfl⟩
  | .newtypeStruct he h =>
    simp only [nodeBytes] at hb
    simp only [Small, he] at hf
    obtain ⟨x, hx, hen⟩ := rfc_complete h hf hb
    refine ⟨_, by (simp only [toXdr, he, hx, Option.map_some]; rfl), ?_⟩
    have := cat_ok hen (b := some []) rfl
    simpa only [Rfc.encode, Rfc.encodeAll, List.append_nil] using this
  | .tupleStruct he h =>
    simp only [nodeBytes] at hb
    simp only [Small, he] at hf
    obtain ⟨xs, hx, hen⟩ := rfcEach_complete h hf hb
    exact ⟨_, by (simp only [toXdr, he, hx, Option.map_some]; rfl), by simp only [Rfc.encode]; exact hen⟩
  | .struct he h =>
    simp only [nodeBytes] at hb
    rw [bytesFields_zip _ _ (by simpa using h.length.2)] at hb
    simp only [Small, he] at hf
    obtain ⟨xs, hx, hen⟩ := rfcEach_complete h hf hb
    exact ⟨_, by (simp only [toXdr, he, hx, Option.map_some]; rfl), by simp only [Rfc.encode]; exact hen⟩
  | .enumUnit he hv =>
    simp only [nodeBytes] at hb
    simp only [Small, he] at hf
    exact ⟨_, by (simp only [toXdr, he, hv]; rfl), by simp only [Rfc.encode]; exact (index_rfc hf.1).mpr hb⟩
  | .enumNewtype he hv h =>
    simp only [nodeBytes] at hb
    obtain ⟨b1, b2, h1, h2, rfl⟩ := Res.cat_eq_ok hb
    simp only [Small, he, hv] at hf
    obtain ⟨x, hx, hen⟩ := rfc_complete h hf.2 h2
    exact ⟨_, by (simp only [toXdr, he, hv, hx, Option.map_some]; rfl),
      by simp only [Rfc.encode]; exact cat_ok ((index_rfc hf.1).mpr h1) hen⟩
  | .enumTuple he hv h =>
    simp only [nodeBytes] at hb
    obtain ⟨b1, b2, h1, h2, rfl⟩ := Res.cat_eq_ok hb
    simp only [Small, he, hv] at hf
    obtain ⟨x, hx, hen⟩ := rfcEach_complete h hf.2 h2
    exact ⟨_, by (simp only [toXdr, he, hv, hx, Option.map_some]; rfl),
      by simp only [Rfc.encode]; exact cat_ok ((index_rfc hf.1).mpr h1) hen⟩
  | .enumStruct he hv h =>
    simp only [nodeBytes] at hb
    obtain ⟨b1, b2, h1, h2, rfl⟩ := Res.cat_eq_ok hb
    rw [bytesFields_zip _ _ (by simpa using h.length.2)] at h2
    simp only [Small, he, hv] at hf
    obtain ⟨x, hx, hen⟩ := rfcEach_complete h hf.2 h2
    exact ⟨_, by (simp only [toXdr, he, hv, hx, Option.map_some]; rfl),
      by simp only [Rfc.encode]; exact cat_ok ((index_rfc hf.1).mpr h1) hen⟩
  | .indexerUnit he hv =>
    obtain ⟨idx, hidx⟩ := ofUser_ok hb
    simp only [hidx, SVal.ofUser, nodeBytes, bytesList_cons, bytesList_nil, Res.cat_nil,
      to_bytes_node, Res.ok.injEq] at hb
    subst hb
    refine ⟨_, by (simp only [toXdr, he, hidx, hv, List.isEmpty_nil, if_true]; rfl), ?_⟩
    have := cat_ok (signed4 idx) (b := some []) rfl
    simpa only [Rfc.encode, List.append_nil] using this
  | .indexer he hv h =>
    simp only [Small, he, hv] at hf
    obtain ⟨idx, hidx⟩ := ofUser_ok hb
    simp only [hidx, SVal.ofUser, nodeBytes, bytesList_cons] at hb
    obtain ⟨b1, b2, h1, h2, rfl⟩ := Res.cat_eq_ok hb
    simp only [to_bytes_node, nodeBytes, Res.ok.injEq] at h1
    subst h1
    obtain ⟨xs, hx, hen⟩ := rfcEach_complete h hf h2
    exact ⟨_, by (simp only [toXdr, he, hidx, hv, hx, Option.map_some]; rfl), by simp only [Rfc.encode]; exact cat_ok (signed4 idx) hen⟩
  | .unionUnit he hv =>
    simp only [nodeBytes, bytesList_nil, Res.ok.injEq] at hb; subst hb
    exact ⟨_, by (simp only [toXdr, he, hv, List.isEmpty_nil, if_true]; rfl), rfl⟩
  | .union he hv h =>
    simp only [Small, he, hv] at hf
    simp only [nodeBytes] at hb
    obtain ⟨xs, hx, hen⟩ := rfcEach_complete h hf hb
    cases xs with
    | nil => exact ⟨_, by (simp only [toXdr, he, hv, hx]; rfl), by simpa only [Rfc.encode, Rfc.encodeAll] using hen⟩
    | cons x xs =>
      exact ⟨_, by (simp only [toXdr, he, hv, hx]; rfl), by simpa only [Rfc.encode, Rfc.encodeAll] using hen⟩

theorem rfcAll_complete {env : Env} {t : Ty} {vs : List Val} {ss : List SVal} :
    PresAll env t vs ss → ∀ {bs : Bytes}, SmallAll env t vs → bytesList ss = .ok bs →
      ∃ xs, toXdrAll env t vs = some xs ∧ Rfc.encodeAll xs = some bs := by
  intro hp bs hf hb
  match hp with
  | .nil _ => simp at hb; subst hb; exact ⟨[], rfl, rfl⟩
  | .cons h hs =>
    simp only [SmallAll] at hf
    rw [bytesList_cons] at hb
    obtain ⟨b1, b2, h1, h2, rfl⟩ := Res.cat_eq_ok hb
    obtain ⟨x, hx, hen⟩ := rfc_complete h hf.1 h1
    obtain ⟨xs, hxs, hens⟩ := rfcAll_complete hs hf.2 h2
    exact ⟨x :: xs, by simp only [toXdrAll, hx, hxs], cat_ok hen hens⟩

theorem rfcEach_complete {env : Env} {ts : List Ty} {vs : List Val} {ss : List SVal} :
    PresEach env ts vs ss → ∀ {bs : Bytes}, SmallEach env ts vs → bytesList ss = .ok bs →
      ∃ xs, toXdrEach env ts vs = some xs ∧ Rfc.encodeAll xs = some bs := by
  intro hp bs hf hb
  match hp with
  | .nil => simp at hb; subst hb; exact ⟨[], by simp only [toXdrEach], rfl⟩
  | .cons h hs =>
    simp only [SmallEach] at hf
    rw [bytesList_cons] at hb
    obtain ⟨b1, b2, h1, h2, rfl⟩ := Res.cat_eq_ok hb
    obtain ⟨x, hx, hen⟩ := rfc_complete h hf.1 h1
    obtain ⟨xs, hxs, hens⟩ := rfcEach_complete hs hf.2 h2
    exact ⟨x :: xs, by simp only [toXdrEach, hx, hxs], cat_ok hen hens⟩

theorem rfcEntries_complete {env : Env} {k t : Ty} {es : List (Val × Val)}
    {ss : List (SVal × SVal)} :
    PresEntries env k t es ss → ∀ {bs : Bytes}, SmallEntries env k t es →
      bytesEntries ss = .ok bs →
      ∃ xs, toXdrEntries env k t es = some xs ∧ Rfc.encodeAll xs = some bs := by
  intro hp bs hf hb
  match hp with
  | .nil _ _ => simp [bytesEntries, Res.concat] at hb; subst hb; exact ⟨[], rfl, rfl⟩
  | .cons ha hb' hs =>
    simp only [SmallEntries] at hf
    simp only [bytesEntries, List.map_cons, Res.concat] at hb
    obtain ⟨b12, b3, h12, h3, rfl⟩ := Res.cat_eq_ok hb
    obtain ⟨b1, b2, h1, h2, rfl⟩ := Res.cat_eq_ok h12
    obtain ⟨x, hx, hen⟩ := rfc_complete ha hf.1 h1
    obtain ⟨y, hy, hen'⟩ := rfc_complete hb' hf.2.1 h2
    obtain ⟨xs, hxs, hens⟩ := rfcEntries_complete hs hf.2.2 h3
    refine ⟨.struct [x, y] :: xs, by simp only [toXdrEntries, hx, hy, hxs], ?_⟩
    have e := cat_ok hen (cat_ok hen' (b := some []) rfl)
    rw [List.append_nil] at e
    exact cat_ok (by simpa only [Rfc.encode, Rfc.encodeAll] using e) hens
end

end Xdr
