import Verif.Props.Scalars
import Verif.Props.Codec
import Verif.Props.Enums
/-! # C18 to C22: lengths, opaque fields, signed32 fields -/

namespace Xdr

/-! ## C19, C20, C21: opaque data -/

/-- C19, writing: the bytes and zero padding, no length. -/
theorem C19_write (env : Env) (v : Bytes) :
    toBytes env (.opaqueFixed v.length) (.bytes v) = .ok (Rfc.zeroPad v) := by
  simp only [toBytes, present, if_true, to_bytes_fixed]
  rfl

/-- C19, reading, for every input. -/
theorem C19_read (env : Env) (m n : Nat) (input : Bytes) :
    (n + (4 - n % 4) % 4 ≤ input.length →
      deTy env (m + 1) (.opaqueFixed n) input =
        .ok (.bytes (input.take n), input.drop (n + (4 - n % 4) % 4))) ∧
    (input.length < n + (4 - n % 4) % 4 →
      ∃ k, deTy env (m + 1) (.opaqueFixed n) input = .err (.notEnoughData k)) := by
  simp only [deTy]
  constructor
  · intro h
    rw [M.bind_ok (a := input.take n) (s' := input.drop (n + padLen n))
      (by rw [fixed_deserialize_run, if_neg (by unfold padLen; omega)])]
    rfl
  · intro h
    exact ⟨_, M.bind_err (by rw [fixed_deserialize_run, if_pos (by unfold padLen; omega)])⟩

example : toBytes Sample.env (.opaqueFixed 5) (.bytes [1, 2, 3, 4, 5]) =
    .ok [1, 2, 3, 4, 5, 0, 0, 0] := C19_write _ [1, 2, 3, 4, 5]

/-- C20, writing: the same bytes as a serde byte buffer, which are count, bytes and zero padding. -/
theorem C20_write (env : Env) (v : Bytes) :
    toBytes env .opaqueVar (.bytes v) = .ok (Rfc.beBytes 4 v.length ++ Rfc.zeroPad v) ∧
    toBytes env .bytes (.bytes v) = toBytes env .opaqueVar (.bytes v) := by
  simp only [toBytes, present, to_bytes_variable, to_bytes_node (.bytes v), nodeBytes, beBytes4]
  exact ⟨rfl, trivial⟩

/-- C20, reading, for every input: a count `n` (four bytes), then `n` bytes and the padding, or
`NotEnoughData`. -/
theorem C20_read (env : Env) (m : Nat) (input : Bytes) :
    (input.length < 4 ∧ ∃ k, deTy env (m + 1) .opaqueVar input = .err (.notEnoughData k)) ∨
    (∃ n rest, n < 2 ^ 32 ∧ input = Rfc.beBytes 4 n ++ rest ∧
      (n + (4 - n % 4) % 4 ≤ rest.length →
        deTy env (m + 1) .opaqueVar input =
          .ok (.bytes (rest.take n), rest.drop (n + (4 - n % 4) % 4))) ∧
      (rest.length < n + (4 - n % 4) % 4 →
        ∃ k, deTy env (m + 1) .opaqueVar input = .err (.notEnoughData k))) := by
  simp only [deTy]
  by_cases h4 : input.length < 4
  · exact .inl ⟨h4, _, M.bind_err (variable_deserialize_lt h4)⟩
  · obtain ⟨a, b, c, d, rest, rfl⟩ := exists_word (Nat.not_lt.mp h4)
    refine .inr ⟨(ofBe32 a b c d).toNat, rest, UInt32.toNat_lt _, ?_, ?_, ?_⟩
    · rw [beBytes4, UInt32.ofNat_toNat, be32_ofBe32]; rfl
    · intro h
      rw [M.bind_ok (a := rest.take (ofBe32 a b c d).toNat)
        (s' := rest.drop ((ofBe32 a b c d).toNat + padLen (ofBe32 a b c d).toNat))
        (by rw [variable_deserialize_run a b c d rest _ rfl, if_neg (by unfold padLen; omega)])]
      rfl
    · intro h
      exact ⟨_, M.bind_err (by
        rw [variable_deserialize_run a b c d rest _ rfl, if_pos (by unfold padLen; omega)])⟩

/-- C20: reading a variable opaque never panics. -/
theorem C20_no_panic (env : Env) (m : Nat) (input : Bytes) (p : PanicSite) :
    deTy env (m + 1) .opaqueVar input ≠ .panic p := by
  rcases C20_read env m input with ⟨_, k, h⟩ | ⟨n, rest, _, _, h1, h2⟩
  · rw [h]; simp
  · by_cases h : n + (4 - n % 4) % 4 ≤ rest.length
    · rw [h1 h]; simp
    · obtain ⟨k, hk⟩ := h2 (by omega)
      rw [hk]; simp

example : fromBytes Sample.env 1 .opaqueVar [255, 255, 255, 255, 1] = .err (.notEnoughData 3) := by
  rw [show (fromBytes Sample.env 1 .opaqueVar [255, 255, 255, 255, 1]) =
    from_bytes (deTy Sample.env 1 .opaqueVar) [255, 255, 255, 255, 1] from rfl, from_bytes]
  simp only [deTy]
  rw [M.bind_err (variable_deserialize_run 255 255 255 255 [1] (2 ^ 32 - 1) (by decide))]
  rfl

/-- C21. -/
theorem C21_agree (env : Env) (m : Nat) (input : Bytes)
    (h : ∀ p, deTy env (m + 1) .bytes input ≠ .panic p) :
    (∀ v rest, deTy env (m + 1) .bytes input = .ok (v, rest) ↔
      deTy env (m + 1) .opaqueVar input = .ok (v, rest)) ∧
    ((∃ k, deTy env (m + 1) .bytes input = .err (.notEnoughData k)) ↔
      ∃ k, deTy env (m + 1) .opaqueVar input = .err (.notEnoughData k)) := by
  simp only [deTy, deserialize_byte_buf] at h ⊢
  by_cases h4 : input.length < 4
  · have e1 : read_bytes input = .err (.notEnoughData (4 - input.length)) := read_bytes_lt h4
    rw [M.bind_err e1, M.bind_err (variable_deserialize_lt h4)]
    simp
  · obtain ⟨a, b, c, d, rest, rfl⟩ := exists_word (Nat.not_lt.mp h4)
    generalize hn : (ofBe32 a b c d).toNat = n
    have hb := read_bytes_run a b c d rest n hn
    have hv := variable_deserialize_run a b c d rest n hn
    by_cases h1 : rest.length < n
    · rw [if_pos h1] at hb
      rw [if_pos (by omega)] at hv
      rw [M.bind_err hb, M.bind_err hv]
      simp
    · rw [if_neg h1] at hb
      by_cases h2 : rest.length < n + padLen n
      · rw [if_pos h2] at hb
        exact absurd (M.bind_panic hb) (h _)
      · rw [if_neg h2] at hb hv
        rw [M.bind_ok hb, M.bind_ok hv]
        simp

/-- C21: the byte buffer panics exactly where the opaque helper misses one to three padding bytes. -/
theorem C21_panic (env : Env) (m : Nat) (input : Bytes) (p : PanicSite)
    (h : deTy env (m + 1) .bytes input = .panic p) :
    ∃ k, 1 ≤ k ∧ k ≤ 3 ∧ deTy env (m + 1) .opaqueVar input = .err (.notEnoughData k) := by
  simp only [deTy, deserialize_byte_buf] at h ⊢
  by_cases h4 : input.length < 4
  · rw [M.bind_err (read_bytes_lt h4)] at h; simp at h
  · obtain ⟨a, b, c, d, rest, rfl⟩ := exists_word (Nat.not_lt.mp h4)
    generalize hn : (ofBe32 a b c d).toNat = n at *
    have hb := read_bytes_run a b c d rest n hn
    have hv := variable_deserialize_run a b c d rest n hn
    by_cases h1 : rest.length < n
    · rw [if_pos h1] at hb; rw [M.bind_err hb] at h; simp at h
    · rw [if_neg h1] at hb
      by_cases h2 : rest.length < n + padLen n
      · rw [if_pos h2] at hv
        have := padLen_add n
        have := padLen_lt n
        exact ⟨4 - rest.length % 4, by omega, by omega, M.bind_err hv⟩
      · rw [if_neg h2] at hb
        rw [M.bind_ok hb] at h; simp at h

example : fromBytes Sample.env 1 .bytes [0, 0, 0, 1, 9] = .panic .paddingSlice ∧
    fromBytes Sample.env 1 .opaqueVar [0, 0, 0, 1, 9] = .err (.notEnoughData 3) := ⟨by rfl, by rfl⟩

/-! ## C22: signed32 -/

/-- C22, writing. -/
theorem C22_write (env : Env) (name : String) (impl : Signed32Impl) (v : Val)
    (hty : HasTy env (.signed32 name impl) v) (bs : Bytes) :
    toBytes env (.signed32 name impl) v = .ok bs ↔
      Rfc.signed 4 (impl.as_ref v).toInt = some bs := by
  unfold HasTy at hty
  unfold toBytes
  cases hs : present env (.signed32 name impl) v with
  | none => simp [hs] at hty
  | some s =>
    cases present_sound env _ v s hs with
    | signed32 _ _ => simp only [signed32_serialize, to_bytes_node, nodeBytes, signed4]; simp

/-- C22, reading. -/
theorem C22_read (env : Env) (n : Nat) (name : String) (impl : Signed32Impl) (i : Int32)
    (bs rest : Bytes) (hbs : Rfc.signed 4 i.toInt = some bs) :
    deTy env (n + 1) (.signed32 name impl) (bs ++ rest) =
      match impl.try_from i with
      | .ok v => .ok (v, rest)
      | .err _ => .err (.custom s!"Can not convert from {i.toInt}")
      | .panic p => .panic p
      | .depth => .depth := by
  rw [signed4, Option.some.injEq] at hbs
  subst hbs
  simp only [deTy, signed32_deserialize, deserialize_i32, M.bind_assoc', M.pure_bind',
    M.bind_ok (reads_i32 i rest)]
  cases impl.try_from i <;> rfl

example : deTy Sample.env 1 (.signed32 "Color" ⟨fun _ => 0, fun _ => .err .convert⟩) [0, 0, 0, 7] =
    .err (.custom "Can not convert from 7") :=
  C22_read Sample.env 0 "Color" ⟨fun _ => 0, fun _ => .err .convert⟩ 7 [0, 0, 0, 7] [] (by decide)

/-! ## C18: lengths of 2^32 and more -/

/-- The full statement of C18, for a type. -/
def LengthsKept (env : Env) (t : Ty) : Prop :=
  ∀ v bs n, HasTy env t v → toBytes env t v = .ok bs → v.depth < n →
    ∀ w, fromBytes env n t bs = .ok w → w = v

theorem reads_zero_u64s (env : Env) (m k : Nat) :
    ReadsAll (List.replicate k (deTy env (m + 1) .u64)) (List.replicate (8 * k) 0)
      (List.replicate k (.u64 0)) := by
  induction k with
  | zero => exact .nil
  | succ k ih =>
    have : List.replicate (8 * (k + 1)) (0 : UInt8) = be64 0 ++ List.replicate (8 * k) 0 := by
      rw [show be64 0 = List.replicate 8 0 from by decide, List.replicate_append_replicate]
      congr 1; omega
    rw [this, List.replicate_succ, List.replicate_succ]
    exact .cons ((reads_u64 0).map (Reads.pure _)) ih

theorem present_u32s (env : Env) (k : Nat) (x : UInt32) :
    presentAll env .u32 (List.replicate k (.u32 x)) = some (List.replicate k (.u32 x)) := by
  induction k with
  | zero => rfl
  | succ k ih => rw [List.replicate_succ, List.replicate_succ, presentAll, present, ih]

theorem bytesList_zero_u32s (k : Nat) :
    bytesList (List.replicate k (.u32 0)) = .ok (List.replicate (4 * k) 0) := by
  induction k with
  | zero => rfl
  | succ k ih =>
    rw [List.replicate_succ, bytesList_cons, ih, to_bytes_node, nodeBytes]
    show Res.ok (be32 0 ++ _) = _
    rw [show be32 0 = List.replicate 4 0 from by decide, List.replicate_append_replicate]
    congr 2; omega

theorem reads_vec (env : Env) (n : Nat) (t : Ty) (w : UInt32) (j : Nat) (hw : w.toNat = j)
    (bs : Bytes) (vs : List Val) (h : ReadsAll (List.replicate j (deTy env n t)) bs vs) :
    Reads (deTy env (n + 1) (.vec t)) (be32 w ++ bs) (.seq vs) := by
  have : Reads (deserialize_seq fun seq => visitVec (deTy env n t) (seq.count + 1) seq)
      (be32 w ++ bs) vs := by
    refine (reads_u32 _).bind ?_
    rw [hw]
    exact reads_visitVec h
  exact this.map (Reads.pure _)

/-- The witness of C18, for a vector of `k + 1` elements whose length wraps to zero. -/
theorem c18_witness (env : Env) (k j : Nat) (w : UInt32) (hk8 : 4 * k + 4 = 8 * j)
    (hk1 : UInt32.ofNat (k + 1) = 0) (h31 : w.toNat = j) :
    ¬ LengthsKept env (.tuple [.vec .u32, .vec .u64]) := by
  intro hall
  have hp : present env (.tuple [.vec .u32, .vec .u64])
      (.seq [.seq (.u32 w :: List.replicate k (.u32 0)), .seq []]) =
      some (.tuple 2 [.seq (some (k + 1)) (.u32 w :: List.replicate k (.u32 0)),
      .seq (some 0) []]) := by
    simp only [present, presentEach, presentAll, present_u32s, Option.map_some,
      List.length_cons, List.length_replicate, List.length_nil]
  have hb : toBytes env (.tuple [.vec .u32, .vec .u64])
      (.seq [.seq (.u32 w :: List.replicate k (.u32 0)), .seq []]) =
      .ok (be32 0 ++ (be32 w ++ (List.replicate (8 * j) 0))) := by
    unfold toBytes
    rw [hp]
    simp only []
    rw [to_bytes_node, nodeBytes, bytesList_cons, bytesList_cons, bytesList_nil, to_bytes_node,
      to_bytes_node, nodeBytes, nodeBytes, bytesList_cons, bytesList_nil, bytesList_zero_u32s,
      to_bytes_node, nodeBytes]
    show Res.ok ((lenBytes (k + 1) ++ (be32 w ++ List.replicate (4 * k) 0)) ++
      ((lenBytes 0 ++ []) ++ [])) = _
    rw [lenBytes, hk1, show lenBytes 0 = List.replicate 4 0 from by decide]
    simp only [List.append_nil, List.append_assoc, List.replicate_append_replicate]
    rw [hk8]
  have hd : Reads (deTy env 3 (.tuple [.vec .u32, .vec .u64]))
      (be32 0 ++ (be32 w ++ (List.replicate (8 * j) 0)))
      (.seq [.seq [], .seq (List.replicate j (.u64 0))]) := by
    have r1 := reads_vec env 1 .u32 0 0 rfl [] [] .nil
    have r2 := reads_vec env 1 .u64 w j h31 _ _ (reads_zero_u64s env 0 j)
    rw [List.append_nil] at r1
    generalize be32 0 = b0 at r1
    generalize be32 w ++ List.replicate (8 * j) 0 = b1 at r2
    refine Reads.map (a := [.seq [], .seq (List.replicate j (.u64 0))]) ?_ (Reads.pure _)
    refine reads_visitEach (ds := [deTy env 2 (.vec .u32), deTy env 2 (.vec .u64)]) ?_ _ 0 2
      (by simp)
    have : ReadsAll [deTy env 2 (.vec .u32), deTy env 2 (.vec .u64)]
        (b0 ++ (b1 ++ []))
        [.seq [], .seq (List.replicate j (.u64 0))] := .cons r1 (.cons r2 .nil)
    rw [List.append_nil] at this
    exact this
  have hdep : (Val.seq [.seq (.u32 w :: List.replicate k (.u32 0)), .seq []]).depth < 3 := by
    have : ∀ k, depthList (List.replicate k (.u32 0)) ≤ 1 := by
      intro k
      induction k with
      | zero => exact Nat.zero_le _
      | succ k ih => rw [List.replicate_succ, depthList]; simp only [Val.depth]; omega
    have := this k
    simp only [Val.depth, depthList]
    omega
  have hfrom : fromBytes env 3 (.tuple [.vec .u32, .vec .u64])
      (be32 0 ++ (be32 w ++ (List.replicate (8 * j) 0))) =
      .ok (.seq [.seq [], .seq (List.replicate j (.u64 0))]) := by
    unfold fromBytes
    generalize be32 0 ++ (be32 w ++ (List.replicate (8 * j) 0)) = bs at hd
    have h2 := hd []
    rw [List.append_nil] at h2
    rw [from_bytes_ok h2, if_pos rfl]
  have := hall _ _ 3 (by unfold HasTy; rw [hp]; rfl) hb hdep _ hfrom
  simp at this

/-- C18 is false of the code: `(Vec<u32>, Vec<u64>)` with `2^32` elements in the first vector is
written without complaint and read back, without complaint, as a different value. -/
theorem C18_violated : ¬ ∀ env t, LengthsKept env t := by
  intro h
  have a : UInt32.ofNat (2 ^ 32 - 1 + 1) = 0 := by
    apply UInt32.toNat_inj.mp; rw [UInt32.toNat_ofNat']; rfl
  have b : (UInt32.ofNat (2 ^ 31)).toNat = 2 ^ 31 := by rw [UInt32.toNat_ofNat']
  have c : 4 * (2 ^ 32 - 1) + 4 = 8 * 2 ^ 31 := by omega
  exact c18_witness (fun _ => none) _ _ _ c a b (h _ _)

theorem beBytes4_mod (n : Nat) : Rfc.beBytes 4 (n % 2 ^ 32) = Rfc.beBytes 4 n := by
  rw [beBytes4, beBytes4]
  congr 1
  apply UInt32.toNat_inj.mp
  rw [UInt32.toNat_ofNat', UInt32.toNat_ofNat']
  omega

/-- C18, what the code does with any length: it writes the length modulo `2^32`, and then all the
elements. -/
theorem C18_truncates (env : Env) (t : Ty) (vs : List Val) (hty : HasTy env (.vec t) (.seq vs)) (v : Bytes) :
    toBytes env (.vec t) (.seq vs) = prefixed (Rfc.beBytes 4 (vs.length % 2 ^ 32))
      (toBytes env (.array vs.length t) (.seq vs)) ∧
    toBytes env .opaqueVar (.bytes v) = .ok (Rfc.beBytes 4 (v.length % 2 ^ 32) ++ Rfc.zeroPad v) := by
  constructor
  · unfold HasTy at hty
    simp only [present, Option.isSome_map] at hty
    obtain ⟨ss, hs⟩ := Option.isSome_iff_exists.1 hty
    simp only [toBytes, present, hs, if_true, Option.map_some]
    rw [to_bytes_node, to_bytes_node, nodeBytes, nodeBytes, beBytes4_mod, beBytes4]
    exact cat_prefixed _ _
  · rw [beBytes4_mod]
    exact (C20_write env v).1

theorem readAll_length {ds : List (De Val)} {b r : Bytes} {vs : List Val} (h : readAll ds b = .ok (vs, r)) :
    vs.length = ds.length := by
  induction ds generalizing b vs with
  | nil =>
    cases h
    rfl
  | cons d ds ih =>
    rw [readAll, M.bind_eq_ok] at h
    obtain ⟨v, s, -, h⟩ := h
    rw [M.bind_eq_ok] at h
    obtain ⟨ws, s', h1, h2⟩ := h
    cases h2
    simp [ih h1]

/-- C18 fails of every vector of `2^32` or more elements and every byte string of that length: no input at
all is read as one, least of all what was written for it. -/
theorem C18_long_violated (env : Env) (t : Ty) (n : Nat) (bs : Bytes) :
    (∀ vs : List Val, 2 ^ 32 ≤ vs.length → fromBytes env n (.vec t) bs ≠ .ok (.seq vs)) ∧
    (∀ v : Bytes, 2 ^ 32 ≤ v.length → fromBytes env n .opaqueVar bs ≠ .ok (.bytes v)) := by
  have hfrom : ∀ ty w, fromBytes env n ty bs = .ok w → ∃ m r, n = m + 1 ∧ deTy env (m + 1) ty bs = .ok (w, r) := by
    intro ty w h
    cases n with
    | zero => simp [fromBytes, from_bytes, deTy, M.depth] at h
    | succ m =>
      unfold fromBytes from_bytes at h
      split at h
      · next t r hr =>
        split at h
        · cases h
          exact ⟨m, r, rfl, hr⟩
        · cases h
      · cases h
      · cases h
      · cases h
  constructor
  · intro vs hl h
    obtain ⟨m, r, -, h⟩ := hfrom _ _ h
    rw [deTy_vec, M.bind_eq_ok] at h
    obtain ⟨c, s, -, h⟩ := h
    rw [M.bind_eq_ok] at h
    obtain ⟨ws, s', h1, h2⟩ := h
    cases h2
    have := readAll_length h1
    rw [List.length_replicate] at this
    have := UInt32.toNat_lt c
    omega
  · intro v hl h
    obtain ⟨m, r, -, h⟩ := hfrom _ _ h
    rcases C20_read env m bs with ⟨-, k, hk⟩ | ⟨k, rest, hk, -, h1, h2⟩
    · rw [h] at hk
      cases hk
    · by_cases hr : k + (4 - k % 4) % 4 ≤ rest.length
      · rw [h1 hr] at h
        simp only [Res.ok.injEq, Prod.mk.injEq, Val.bytes.injEq] at h
        rw [← h.1] at hl
        simp only [List.length_take] at hl
        omega
      · obtain ⟨e, he⟩ := h2 (by omega)
        rw [h] at he
        cases he

/-- The vector of `C18_violated` has the type, so `C18_truncates` says what is written for it. -/
example (env : Env) (k : Nat) : HasTy env (.vec .u32) (.seq (List.replicate k (.u32 7))) := by
  unfold HasTy
  simp [present, present_u32s]

/-- C18 holds for values within the length limits (this is C01); what is missing from the full
statement is the rejection of longer ones. -/
theorem C18_lengths_partial (env : Env) (t : Ty) (v : Val) (bs : Bytes) (n : Nat) (w : Val)
    (hfits : Fits env t v) (h : toBytes env t v = .ok bs) (hn : v.depth < n)
    (hw : fromBytes env n t bs = .ok w) : w = v := by
  rw [C01_roundtrip env t v bs n hfits hn h] at hw
  exact (Res.ok.inj hw).symm

end Xdr
