import Verif.Props.Codec
/-!
# C10 to C15: scalars, strings, padding

Encodings are stated with `Rfc.signed`, `Rfc.unsigned`, `Rfc.beBytes`, `Rfc.zeroPad` of
`Spec/Rfc4506.lean`. In the reading theorems `a b c d` are any four bytes and `rest` anything.
-/

namespace Xdr

/-! ## C10: narrow integers -/

/-- C10, writing. -/
theorem C10_write (env : Env) (i : Int8) (j : Int16) (k : UInt8) (l : UInt16) (bs : Bytes) :
    (toBytes env .i8 (.i8 i) = .ok bs ↔ Rfc.signed 4 i.toInt = some bs) ∧
    (toBytes env .i16 (.i16 j) = .ok bs ↔ Rfc.signed 4 j.toInt = some bs) ∧
    (toBytes env .u8 (.u8 k) = .ok bs ↔ Rfc.unsigned 4 k.toNat = some bs) ∧
    (toBytes env .u16 (.u16 l) = .ok bs ↔ Rfc.unsigned 4 l.toNat = some bs) := by
  simp only [toBytes, present, to_bytes_node, nodeBytes]
  rw [← int8_toInt32, ← int16_toInt32, signed4, signed4, ← UInt8.toNat_toUInt32 k,
    ← UInt16.toNat_toUInt32 l, unsigned4, unsigned4]
  simp

theorem ofBe32_toUInt8 (a b c d : UInt8) : (ofBe32 a b c d).toUInt8 = d := by
  apply UInt8.toNat_inj.mp
  have := d.toNat_lt
  simp only [UInt32.toNat_toUInt8, ofBe32_toNat]
  omega

theorem ofBe32_toUInt16 (a b c d : UInt8) :
    (ofBe32 a b c d).toUInt16 = UInt16.ofNat (c.toNat * 256 + d.toNat) := by
  apply UInt16.toNat_inj.mp
  simp only [UInt32.toNat_toUInt16, ofBe32_toNat, UInt16.toNat_ofNat']
  omega

theorem toInt32_toInt8 (v : UInt32) : v.toInt32.toInt8 = v.toUInt8.toInt8 := by
  apply Int8.toBitVec_inj.mp
  simp [BitVec.signExtend_eq_setWidth_of_le]

theorem toInt32_toInt16 (v : UInt32) : v.toInt32.toInt16 = v.toUInt16.toInt16 := by
  apply Int16.toBitVec_inj.mp
  simp [BitVec.signExtend_eq_setWidth_of_le]

/-- C10, reading: only the low byte(s) count; the high ones are not looked at. -/
theorem C10_read (env : Env) (n : Nat) (a b c d : UInt8) (rest : Bytes) :
    deTy env (n + 1) .u8 (a :: b :: c :: d :: rest) = .ok (.u8 d, rest) ∧
    deTy env (n + 1) .i8 (a :: b :: c :: d :: rest) = .ok (.i8 d.toInt8, rest) ∧
    deTy env (n + 1) .u16 (a :: b :: c :: d :: rest) =
      .ok (.u16 (UInt16.ofNat (c.toNat * 256 + d.toNat)), rest) ∧
    deTy env (n + 1) .i16 (a :: b :: c :: d :: rest) =
      .ok (.i16 (UInt16.ofNat (c.toNat * 256 + d.toNat)).toInt16, rest) := by
  simp only [deTy, deserialize_u8, deserialize_i8, deserialize_u16, deserialize_i16,
    M.bind_ok (read_u32_cons ..), M.bind_ok (read_i32_cons ..), M.pure_run]
  refine ⟨by rw [ofBe32_toUInt8], ?_, by rw [ofBe32_toUInt16], ?_⟩
  · rw [toInt32_toInt8, ofBe32_toUInt8]
  · rw [toInt32_toInt16, ofBe32_toUInt16]

/-- The truncation loses information: 256 decodes to the u8 zero. -/
example : fromBytes Sample.env 1 .u8 [0, 0, 1, 0] = .ok (.u8 0) := by rfl
example : toBytes Sample.env .i8 (.i8 (-2)) = .ok [255, 255, 255, 254] := by decide +kernel

/-! ## C11: 32 and 64 bit integers, floats -/

/-- C11, writing. -/
theorem C11_write (env : Env) (i : Int32) (j : Int64) (k : UInt32) (l : UInt64) (bs : Bytes) :
    (toBytes env .i32 (.i32 i) = .ok bs ↔ Rfc.signed 4 i.toInt = some bs) ∧
    (toBytes env .i64 (.i64 j) = .ok bs ↔ Rfc.signed 8 j.toInt = some bs) ∧
    (toBytes env .u32 (.u32 k) = .ok bs ↔ Rfc.unsigned 4 k.toNat = some bs) ∧
    (toBytes env .u64 (.u64 l) = .ok bs ↔ Rfc.unsigned 8 l.toNat = some bs) ∧
    (toBytes env .f32 (.f32 k) = .ok bs ↔ Rfc.unsigned 4 k.toNat = some bs) ∧
    (toBytes env .f64 (.f64 l) = .ok bs ↔ Rfc.unsigned 8 l.toNat = some bs) := by
  simp only [toBytes, present, to_bytes_node, nodeBytes]
  rw [signed4, signed8, unsigned4, unsigned8]
  simp

/-- C11, reading 4 bytes: the result is the number (or float) whose RFC encoding they are. -/
theorem C11_read4 (env : Env) (n : Nat) (a b c d : UInt8) (rest : Bytes) :
    (∃ v, deTy env (n + 1) .i32 (a :: b :: c :: d :: rest) = .ok (.i32 v, rest) ∧
      Rfc.signed 4 v.toInt = some [a, b, c, d]) ∧
    (∃ v, deTy env (n + 1) .u32 (a :: b :: c :: d :: rest) = .ok (.u32 v, rest) ∧
      Rfc.unsigned 4 v.toNat = some [a, b, c, d]) ∧
    (∃ v, deTy env (n + 1) .f32 (a :: b :: c :: d :: rest) = .ok (.f32 v, rest) ∧
      Rfc.unsigned 4 v.toNat = some [a, b, c, d]) := by
  simp only [deTy, deserialize_u32, deserialize_i32, deserialize_f32, read_f32_eq,
    M.bind_ok (read_u32_cons ..), M.bind_ok (read_i32_cons ..), M.pure_run]
  refine ⟨⟨_, rfl, ?_⟩, ⟨_, rfl, ?_⟩, ⟨_, rfl, ?_⟩⟩
  · rw [signed4]; simp [be32_ofBe32]
  · rw [unsigned4, be32_ofBe32]
  · rw [unsigned4, be32_ofBe32]

/-- C11, reading 8 bytes. -/
theorem C11_read8 (env : Env) (n : Nat) (a b c d e f g h : UInt8) (rest : Bytes) :
    (∃ v, deTy env (n + 1) .i64 (a :: b :: c :: d :: e :: f :: g :: h :: rest) = .ok (.i64 v, rest) ∧
      Rfc.signed 8 v.toInt = some [a, b, c, d, e, f, g, h]) ∧
    (∃ v, deTy env (n + 1) .u64 (a :: b :: c :: d :: e :: f :: g :: h :: rest) = .ok (.u64 v, rest) ∧
      Rfc.unsigned 8 v.toNat = some [a, b, c, d, e, f, g, h]) ∧
    (∃ v, deTy env (n + 1) .f64 (a :: b :: c :: d :: e :: f :: g :: h :: rest) = .ok (.f64 v, rest) ∧
      Rfc.unsigned 8 v.toNat = some [a, b, c, d, e, f, g, h]) := by
  simp only [deTy, deserialize_u64, deserialize_i64, deserialize_f64, read_f64_eq, read_i64_eq,
    M.bind_assoc', M.pure_bind', M.bind_ok (read_u64_cons ..), M.pure_run]
  refine ⟨⟨_, rfl, ?_⟩, ⟨_, rfl, ?_⟩, ⟨_, rfl, ?_⟩⟩
  · rw [signed8]; simp [be64_ofBe64]
  · rw [unsigned8, be64_ofBe64]
  · rw [unsigned8, be64_ofBe64]

example : fromBytes Sample.env 1 .i64 [255, 255, 255, 255, 255, 255, 255, 254] = .ok (.i64 (-2)) := by
  rfl

/-! ## C12: bool and Option -/

/-- C12, writing. -/
theorem C12_write (env : Env) (t : Ty) (v : Val) (bs : Bytes) (h : toBytes env t v = .ok bs) :
    toBytes env .bool (.bool false) = .ok [0, 0, 0, 0] ∧
    toBytes env .bool (.bool true) = .ok [0, 0, 0, 1] ∧
    toBytes env (.option t) .none = .ok [0, 0, 0, 0] ∧
    toBytes env (.option t) (.some v) = .ok ([0, 0, 0, 1] ++ bs) := by
  refine ⟨rfl, rfl, rfl, ?_⟩
  unfold toBytes at h ⊢
  cases hs : present env t v with
  | none => simp [hs] at h
  | some s =>
    simp only [hs] at h
    simp only [present, hs, Option.map_some, to_bytes_node (.some s), nodeBytes, h]
    rfl

theorem ofBe32_eq_zero (a b c d : UInt8) : ofBe32 a b c d = 0 ↔ [a, b, c, d] = [0, 0, 0, 0] := by
  constructor
  · intro h
    rw [← be32_ofBe32 a b c d, h]; rfl
  · intro h
    simp only [List.cons.injEq, and_true] at h
    obtain ⟨rfl, rfl, rfl, rfl⟩ := h
    rfl

/-- C12, reading bool: every non-zero word is `true`. -/
theorem C12_read_bool (env : Env) (n : Nat) (a b c d : UInt8) (rest : Bytes) :
    deTy env (n + 1) .bool (a :: b :: c :: d :: rest) =
      .ok (.bool (decide ([a, b, c, d] ≠ [0, 0, 0, 0])), rest) := by
  simp only [deTy, deserialize_bool, M.bind_ok (read_u32_cons ..), M.pure_run]
  congr 4
  rw [Bool.eq_iff_iff]
  simp only [bne_iff_ne, decide_eq_true_eq, ne_eq, ofBe32_eq_zero]

/-- C12, reading `None`. -/
theorem C12_read_none (env : Env) (n : Nat) (t : Ty) (rest : Bytes) :
    deTy env (n + 1) (.option t) (0 :: 0 :: 0 :: 0 :: rest) = .ok (.none, rest) := by
  simp only [deTy, deserialize_option, M.bind_ok (read_u32_cons ..)]
  rfl

/-- C12, reading `Some`: every non-zero word announces a payload. -/
theorem C12_read_some (env : Env) (n : Nat) (t : Ty) (a b c d : UInt8) (rest : Bytes)
    (h : [a, b, c, d] ≠ [0, 0, 0, 0]) :
    deTy env (n + 1) (.option t) (a :: b :: c :: d :: rest) =
      match deTy env n t rest with
      | .ok (v, rest') => .ok (.some v, rest')
      | .err e => .err e
      | .panic p => .panic p
      | .depth => .depth := by
  simp only [deTy, deserialize_option, M.bind_ok (read_u32_cons ..)]
  rw [if_neg (by rw [beq_iff_eq, ofBe32_eq_zero]; exact h), M.bind_run]
  cases deTy env n t rest <;> rfl

example : fromBytes Sample.env 2 (.option .bool) [9, 0, 0, 0, 0, 0, 0, 2] =
    .ok (.some (.bool true)) := by rfl

/-! ## C13: char -/

/-- The Unicode scalar values. -/
def IsScalar (n : Nat) : Prop := n < 0xD800 ∨ (0xDFFF < n ∧ n < 0x110000)

/-- C13, writing. -/
theorem C13_write (env : Env) (v : Char) : toBytes env .char (.char v) = .ok (Rfc.beBytes 4 v.toNat) := by
  simp only [toBytes, present, to_bytes_node, nodeBytes]
  rw [beBytes4, Char.toNat, UInt32.ofNat_toNat]

theorem charFromU32_spec (n : UInt32) :
    (IsScalar n.toNat → ∃ v : Char, charFromU32 n = some v ∧ v.toNat = n.toNat) ∧
    (¬ IsScalar n.toNat → charFromU32 n = none) := by
  unfold charFromU32 IsScalar
  have hv : n.isValidChar ↔ (n.toNat < 0xD800 ∨ (0xDFFF < n.toNat ∧ n.toNat < 0x110000)) := Iff.rfl
  constructor
  · intro h
    rw [dif_pos (hv.mpr h)]
    exact ⟨_, rfl, rfl⟩
  · intro h
    rw [dif_neg (fun h' => h (hv.mp h'))]

/-- C13, reading: `a b c d` is the big-endian form of the code `n`. -/
theorem C13_read (env : Env) (m : Nat) (n : Nat) (hn : n < 2 ^ 32) (rest : Bytes) :
    (IsScalar n → ∃ v : Char, v.toNat = n ∧
      deTy env (m + 1) .char (Rfc.beBytes 4 n ++ rest) = .ok (.char v, rest)) ∧
    (¬ IsScalar n → deTy env (m + 1) .char (Rfc.beBytes 4 n ++ rest) = .err .convert) := by
  have hnat : (UInt32.ofNat n).toNat = n := by rw [UInt32.toNat_ofNat', Nat.mod_eq_of_lt hn]
  have hr := reads_u32 (UInt32.ofNat n) rest
  have hs := charFromU32_spec (UInt32.ofNat n)
  rw [hnat] at hs
  rw [beBytes4]
  simp only [deTy, deserialize_char, read_char, M.bind_assoc', M.bind_ok hr]
  constructor
  · intro h
    obtain ⟨v, hv, hvn⟩ := hs.1 h
    exact ⟨v, hvn, by simp only [hv]; rfl⟩
  · intro h
    simp only [hs.2 h]; rfl

example : fromBytes Sample.env 1 .char [0, 0, 0xD8, 0] = .err .convert := by rfl
example : IsScalar 0x10FFFF ∧ ¬ IsScalar 0xD800 := by unfold IsScalar; omega

/-! ## C14: strings -/

/-- C14, writing: length (modulo 2^32), UTF-8 bytes, zero padding. -/
theorem C14_write (env : Env) (s : List Char) :
    toBytes env .string (.str s) =
      .ok (Rfc.beBytes 4 (s.flatMap String.utf8EncodeChar).length ++
        Rfc.zeroPad (s.flatMap String.utf8EncodeChar)) := by
  simp only [toBytes, present, to_bytes_node, nodeBytes, utf8Bytes_core, beBytes4]
  rfl

/-- C14, reading, when the announced bytes and the padding are there. -/
theorem C14_read (env : Env) (m : Nat) (payload pad rest : Bytes) (hn : payload.length < 2 ^ 32)
    (hpad : pad.length = (4 - payload.length % 4) % 4) :
    (∀ s : List Char, payload = s.flatMap String.utf8EncodeChar →
      deTy env (m + 1) .string (Rfc.beBytes 4 payload.length ++ payload ++ pad ++ rest) =
        .ok (.str s, rest)) ∧
    ((¬ ∃ s : List Char, payload = s.flatMap String.utf8EncodeChar) →
      ∃ e, Faulty payload e ∧
        deTy env (m + 1) .string (Rfc.beBytes 4 payload.length ++ payload ++ pad ++ rest) =
          .err (.encoding e)) := by
  simp only [deTy, deserialize_string]
  rw [beBytes4]
  constructor
  · intro s hs
    rw [← utf8Bytes_core] at hs
    subst hs
    have := reads_string_pad hn pad hpad rest
    rw [lenBytes] at this
    simp only [List.append_assoc] at this ⊢
    rw [M.bind_ok this]; rfl
  · intro hs
    have hnone : utf8Decode payload = none := by
      cases hd : utf8Decode payload with
      | none => rfl
      | some s => exact absurd ⟨s, by rw [← utf8Bytes_core, utf8Bytes_decode hd]⟩ hs
    have hl : (UInt32.ofNat payload.length).toNat = payload.length := by
      rw [UInt32.toNat_ofNat', Nat.mod_eq_of_lt hn]
    simp only [be32, List.cons_append, List.nil_append, List.append_assoc]
    refine ⟨_, utf8Fault_spec hnone, ?_⟩
    rw [M.bind_err (e := .encoding (utf8Fault payload))]
    rw [read_string_run _ _ _ _ _ payload.length (by rw [ofBe32_be32, hl])]
    rw [if_neg (by simp)]
    have : List.take payload.length (payload ++ (pad ++ rest)) = payload := by simp
    rw [this, hnone]

example : fromBytes Sample.env 1 .string [0, 0, 0, 2, 195, 169, 7, 7] = .ok (.str ['é']) := by rfl
/-- An overlong form is rejected. -/
example : fromBytes Sample.env 1 .string [0, 0, 0, 2, 192, 128, 0, 0] =
    .err (.encoding ⟨0, some 1⟩) := by rfl

/-! ## C15: padding content -/

/-- C15: for each of the four padded types, the padding bytes do not matter. -/
theorem C15_padding_ignored (env : Env) (m : Nat) (payload pad pad' rest : Bytes)
    (hn : payload.length < 2 ^ 32) (hpad : pad.length = (4 - payload.length % 4) % 4)
    (hpad' : pad'.length = pad.length) :
    (∀ t ∈ [Ty.string, Ty.bytes, Ty.opaqueVar],
      deTy env (m + 1) t (Rfc.beBytes 4 payload.length ++ payload ++ pad ++ rest) =
      deTy env (m + 1) t (Rfc.beBytes 4 payload.length ++ payload ++ pad' ++ rest)) ∧
    deTy env (m + 1) (.opaqueFixed payload.length) (payload ++ pad ++ rest) =
      deTy env (m + 1) (.opaqueFixed payload.length) (payload ++ pad' ++ rest) := by
  have hp' : pad'.length = padLen payload.length := by rw [hpad', hpad]; rfl
  rw [beBytes4]
  refine ⟨?_, ?_⟩
  · intro t ht
    simp only [List.mem_cons, List.not_mem_nil, or_false] at ht
    rcases ht with rfl | rfl | rfl
    · by_cases hs : ∃ s : List Char, payload = s.flatMap String.utf8EncodeChar
      · obtain ⟨s, hs⟩ := hs
        have h1 := (C14_read env m payload pad rest hn hpad).1 s hs
        have h2 := (C14_read env m payload pad' rest hn hp').1 s hs
        rw [beBytes4] at h1 h2
        rw [h1, h2]
      · obtain ⟨e, he, h1⟩ := (C14_read env m payload pad rest hn hpad).2 hs
        obtain ⟨e', he', h2⟩ := (C14_read env m payload pad' rest hn hp').2 hs
        obtain rfl := he.unique he'
        rw [beBytes4] at h1 h2
        rw [h1, h2]
    · have h1 := reads_bytes_pad hn pad hpad rest
      have h2 := reads_bytes_pad hn pad' hp' rest
      rw [lenBytes] at h1 h2
      simp only [List.append_assoc] at h1 h2 ⊢
      simp only [deTy, deserialize_byte_buf, M.bind_ok h1, M.bind_ok h2]
    · have h1 := reads_variable_pad hn pad hpad rest
      have h2 := reads_variable_pad hn pad' hp' rest
      rw [lenBytes] at h1 h2
      simp only [List.append_assoc] at h1 h2 ⊢
      simp only [deTy, M.bind_ok h1, M.bind_ok h2]
  · have h1 := reads_fixed_pad payload pad hpad rest
    have h2 := reads_fixed_pad payload pad' hp' rest
    simp only [deTy, M.bind_ok h1, M.bind_ok h2]

example : fromBytes Sample.env 1 .opaqueVar [0, 0, 0, 1, 5, 1, 2, 3] =
    fromBytes Sample.env 1 .opaqueVar [0, 0, 0, 1, 5, 0, 0, 0] := by rfl

end Xdr
