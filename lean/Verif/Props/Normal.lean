import Verif.Proofs.Decoded
import Verif.Props.Decoding
/-! # C09: decoding then encoding is normalisation -/

namespace Xdr

theorem normal_bytes {env : Env} {maps : Bool} (henv : EnvConsistent env maps) {t : Ty}
    (ht : t.Consistent env maps) {n : Nat} {b : Bytes} {v : Val} (h : fromBytes env n t b = .ok v) :
    HasTy env t v ∧ ∃ bs, toBytes env t v = .ok bs ∧ bs.length ≤ b.length ∧
      (maps = false → bs.length = b.length) ∧ fromBytes env n t bs = .ok v := by
  obtain ⟨k, ⟨s, bs, h1, h2, h3, h4, h5⟩, h6, h7⟩ :=
    decoded_normal henv n t ht _ _ _ (from_bytes_eq_ok h)
  have hb : toBytes env t v = .ok bs := by
    unfold toBytes; rw [h1.complete]; exact h4
  simp only [List.length_nil, Nat.sub_zero] at h6 h7
  refine ⟨by unfold HasTy; rw [h1.complete]; rfl, bs, hb, by omega, fun hm => ?_,
    C01_roundtrip env t v bs n h2 h3 hb⟩
  rw [h5]; exact h7 hm

/-- C09. What a type without maps decodes to is a value of the type; it encodes, to as many bytes as
were decoded, and decodes to the same value again. User conversions, if any, have to be consistent
with each other (`Spec/Classes.lean`). -/
theorem C09_normalisation (env : Env) (henv : EnvConsistent env false) (t : Ty)
    (ht : t.Consistent env false) (n : Nat) (b : Bytes) (v : Val) (h : fromBytes env n t b = .ok v) :
    HasTy env t v ∧ ∃ bs, toBytes env t v = .ok bs ∧ bs.length = b.length ∧
      fromBytes env n t bs = .ok v := by
  obtain ⟨h1, bs, h2, _, h3, h4⟩ := normal_bytes henv ht h
  exact ⟨h1, bs, h2, h3 rfl, h4⟩

/-- C09 with maps: repeated keys collapse, so the encoding may be shorter. -/
theorem C09_maps (env : Env) (henv : EnvConsistent env true) (t : Ty)
    (ht : t.Consistent env true) (n : Nat) (b : Bytes) (v : Val) (h : fromBytes env n t b = .ok v) :
    HasTy env t v ∧ ∃ bs, toBytes env t v = .ok bs ∧ bs.length ≤ b.length ∧
      fromBytes env n t bs = .ok v := by
  obtain ⟨h1, bs, h2, h3, _, h4⟩ := normal_bytes henv ht h
  exact ⟨h1, bs, h2, h3, h4⟩

theorem Sample.consistent (maps : Bool) : EnvConsistent Sample.env maps := by
  intro name d h
  unfold Sample.env at h
  split at h
  · simp only [Option.some.injEq] at h; subst h
    simp [Def.Consistent, Def.types, ConsistentAll, Ty.Consistent]
  split at h
  · simp only [Option.some.injEq] at h; subst h
    simp [Def.Consistent, Def.types, Shape.types, ConsistentAll, Ty.Consistent]
  split at h
  · simp only [Option.some.injEq] at h; subst h
    refine ⟨by simp [Def.types, ConsistentAll, Ty.Consistent], ?_⟩
    intro idx vn h1 i fields h2 vs
    refine ⟨_, rfl, ?_⟩
    match i, h2 with
    | 0, h2 =>
      simp only [List.getElem?_cons_zero, Option.some.injEq, Prod.mk.injEq] at h2
      rw [← h2.1]; rfl
    | 1, h2 =>
      simp only [List.getElem?_cons_zero, List.getElem?_cons_succ, Option.some.injEq,
        Prod.mk.injEq] at h2
      rw [← h2.1]; rfl
    | i + 2, h2 => simp at h2
  split at h
  · simp only [Option.some.injEq] at h; subst h
    refine ⟨by simp [Def.types, ConsistentAll, Ty.Consistent], ?_⟩
    intro v vn h1 i fields h2
    match i, h2 with
    | 0, h2 =>
      simp only [List.getElem?_cons_zero, Option.some.injEq, Prod.mk.injEq] at h2
      exact ⟨_, h2.2.symm⟩
    | 1, h2 =>
      simp only [List.getElem?_cons_zero, List.getElem?_cons_succ, Option.some.injEq,
        Prod.mk.injEq] at h2
      exact ⟨_, h2.2.symm⟩
    | i + 2, h2 => simp at h2
  · simp at h

/-- Input that no encoder writes: flag 7, non-zero padding, a truncated `u8`. -/
example : ∃ bs, toBytes Sample.env (.tuple [.option .bytes, .u8, .named "Ix"])
      (.seq [.some (.bytes [1]), .u8 3, .variant 0 []]) = .ok bs ∧ bs.length = 20 ∧
    fromBytes Sample.env 9 (.tuple [.option .bytes, .u8, .named "Ix"]) bs =
      .ok (.seq [.some (.bytes [1]), .u8 3, .variant 0 []]) := by
  have := C09_normalisation Sample.env (Sample.consistent _) (.tuple [.option .bytes, .u8, .named "Ix"])
    (by simp [Ty.Consistent, ConsistentAll]) 9
    [0, 0, 0, 7, 0, 0, 0, 1, 1, 9, 9, 9, 0, 0, 1, 3, 255, 255, 255, 253] _ rfl
  obtain ⟨_, bs, h1, h2, h3⟩ := this
  exact ⟨bs, h1, h2, h3⟩

/-- A map with a repeated key: four bytes for the count, two entries, of which one remains. -/
example : fromBytes Sample.env 9 (.map .u8 .bool) [0, 0, 0, 2, 0, 0, 0, 7, 0, 0, 0, 0, 0, 0, 0, 7,
    0, 0, 0, 1] = .ok (.map [(.u8 7, .bool true)]) ∧
    (Ty.map .u8 .bool).Consistent Sample.env true := ⟨rfl, by simp [Ty.Consistent]⟩

end Xdr
