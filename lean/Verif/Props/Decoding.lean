import Verif.Props.Codec
/-!
# C06, C26, C28, C29, C30: every `Deserialize` implementation

`Built d` (`Spec/Built.lean`): the decoder `d` is some `Deserialize` impl driven by this deserializer.
`built_deTy`: the impls of all modelled Rust types are of this kind.
-/

namespace Xdr

theorem from_bytes_eq_ok {α : Type} {d : De α} {b : Bytes} {v : α} (h : from_bytes d b = .ok v) :
    d b = .ok (v, []) := by
  unfold from_bytes at h
  split at h
  · rename_i t rest hr
    split at h
    · rename_i he
      simp only [Res.ok.injEq] at h
      rw [List.isEmpty_iff] at he
      rw [hr, h, he]
    · simp at h
  · simp at h
  · simp at h
  · simp at h

/-- C06: cutting off the end of an accepted input. The result is `NotEnoughData(k)`, where `k` is
positive and at most the number of bytes cut off, or a panic; the panic happens only if the cut is not
at a multiple of four bytes. -/
theorem C06_truncated {α : Type} (d : De α) (hd : Built d) (pre cut : Bytes) (v : α)
    (hcut : cut ≠ []) (h : from_bytes d (pre ++ cut) = .ok v) :
    (∃ k, 0 < k ∧ k ≤ cut.length ∧ from_bytes d pre = .err (.notEnoughData k)) ∨
    (from_bytes d pre = .panic .paddingSlice ∧ ¬ 4 ∣ pre.length) := by
  have h0 := from_bytes_eq_ok h
  rcases hd.gen.prefix h0 hcut with ⟨k, hk⟩ | ⟨hp, hl⟩
  · obtain ⟨hpos, hmiss⟩ := hd.gen.missing hk
    refine .inl ⟨k, hpos, ?_, by rw [from_bytes, hk]⟩
    apply Nat.le_of_not_lt
    intro hlt
    rw [hmiss cut hlt] at h0
    simp at h0
  · exact .inr ⟨by rw [from_bytes, hp], by omega⟩

/-- C06 for the modelled types. -/
theorem C06_truncated_types (env : Env) (n : Nat) (t : Ty) (pre cut : Bytes) (v : Val)
    (hcut : cut ≠ []) (h : fromBytes env n t (pre ++ cut) = .ok v) :
    (∃ k, 0 < k ∧ k ≤ cut.length ∧ fromBytes env n t pre = .err (.notEnoughData k)) ∨
    (fromBytes env n t pre = .panic .paddingSlice ∧ ¬ 4 ∣ pre.length) :=
  C06_truncated _ (built_deTy env n t) pre cut v hcut h

example : fromBytes Sample.env 6 Sample.ty Sample.bytes = .ok Sample.val ∧
    fromBytes Sample.env 6 Sample.ty (Sample.bytes.take 21) = .err (.notEnoughData 3) ∧
    fromBytes Sample.env 6 Sample.ty (Sample.bytes.take 19) = .panic .paddingSlice := by
  refine ⟨C01_roundtrip _ _ _ _ _ Sample.fits_val (by decide +kernel) Sample.toBytes_val, ?_, ?_⟩
  · rfl
  · rfl

/-- C28. -/
theorem C28_local {α : Type} (d : De α) (hd : Built d) (input rest : Bytes) (v : α)
    (h : d input = .ok (v, rest)) :
    ∃ used, input = used ++ rest ∧ 4 ∣ used.length ∧ ∀ rest', d (used ++ rest') = .ok (v, rest') := by
  obtain ⟨used, h1, h2, h3⟩ := hd.gen.local h
  exact ⟨used, h1, by omega, h3⟩

/-- C28 on `from_bytes`: accepted inputs are whole numbers of XDR units. -/
theorem C28_accepted_aligned {α : Type} (d : De α) (hd : Built d) (b : Bytes) (v : α)
    (h : from_bytes d b = .ok v) : 4 ∣ b.length := by
  obtain ⟨used, h1, h2, _⟩ := C28_local d hd b [] v (from_bytes_eq_ok h)
  rw [h1, List.append_nil]; exact h2

example : Built (deTy Sample.env 6 Sample.ty) ∧
    deTy Sample.env 6 Sample.ty (Sample.bytes ++ [1, 2, 3]) = .ok (Sample.val, [1, 2, 3]) :=
  ⟨built_deTy .., C04_self_delimiting _ _ _ _ _ _ Sample.fits_val (by decide +kernel)
    Sample.toBytes_val⟩

/-- C29. -/
theorem C29_not_enough_data {α : Type} (d : De α) (hd : Built d) (input : Bytes) (k : Nat)
    (h : from_bytes d input = .err (.notEnoughData k)) :
    0 < k ∧ ∀ more : Bytes, more.length < k →
      from_bytes d (input ++ more) = .err (.notEnoughData (k - more.length)) := by
  have h0 : d input = .err (.notEnoughData k) := by
    unfold from_bytes at h
    split at h
    · split at h <;> simp at h
    · rename_i e he; simp only [Res.err.injEq] at h; rw [he, h]
    · simp at h
    · simp at h
  obtain ⟨hk, hm⟩ := hd.gen.missing h0
  exact ⟨hk, fun more hmore => by rw [from_bytes, hm more hmore]⟩

example : fromBytes Sample.env 6 Sample.ty [0, 0, 0, 9, 97] = .err (.notEnoughData 8) := by rfl

/-- C30. The error may be anything but `NotEnoughData` and `TrailingData` (which are about the end of
the input). -/
theorem C30_errors_final {α : Type} (d : De α) (hd : Built d) (input more : Bytes) (e : Error)
    (h : from_bytes d input = .err e) (h1 : ∀ k, e ≠ .notEnoughData k)
    (h2 : ∀ k, e ≠ .trailingData k) : from_bytes d (input ++ more) = .err e := by
  have h0 : d input = .err e := by
    unfold from_bytes at h
    split at h
    · split at h
      · simp at h
      · simp only [Res.err.injEq] at h; exact absurd h.symm (h2 _)
    · rename_i e' he; simp only [Res.err.injEq] at h; rw [he, h]
    · simp at h
    · simp at h
  rw [from_bytes, hd.gen.errFinal h0 h1 more]

/-- C30 for `TrailingData`: appending `j` bytes to an input with `k` bytes too many makes it `k + j`. -/
theorem C30_trailing {α : Type} (d : De α) (hd : Built d) (input more : Bytes) (k : Nat)
    (h : from_bytes d input = .err (.trailingData k)) :
    from_bytes d (input ++ more) = .err (.trailingData (k + more.length)) := by
  unfold from_bytes at h
  split at h
  · rename_i t rest hr
    split at h
    · simp at h
    · rename_i hne
      simp only [Res.err.injEq, Error.trailingData.injEq] at h
      subst h
      obtain ⟨used, rfl, _, hu⟩ := hd.gen.local hr
      rw [List.append_assoc, from_bytes_ok (hu _)]
      rw [if_neg (by intro h'; simp at h'; exact hne (by simp [h'.1]))]
      simp
  · rename_i e' he; simp only [Res.err.injEq] at h; subst h; exact absurd he (hd.gen.noTrailing _ _)
  · simp at h
  · simp at h

example : fromBytes Sample.env 6 Sample.ty [0, 0, 0, 1, 0xFF] = .err (.encoding ⟨0, some 1⟩) := by rfl

/-- C26, reading. -/
theorem C26_unsupported_read {α : Type} (input : Bytes) :
    (deserialize_any : De α) input = .err .notImplemented ∧
    (deserialize_ignored_any : De α) input = .err .notImplemented ∧
    (deserialize_i128 : De α) input = .err (.custom "i128 is not supported") ∧
    (deserialize_u128 : De α) input = .err (.custom "u128 is not supported") := ⟨rfl, rfl, rfl, rfl⟩

/-- C26, writing. -/
theorem C26_unsupported_write (i : Int) (n : Nat) :
    to_bytes (.i128 i) = .err (.custom "i128 is not supported") ∧
    to_bytes (.u128 n) = .err (.custom "u128 is not supported") := ⟨rfl, rfl⟩

end Xdr
