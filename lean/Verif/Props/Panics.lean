import Verif.Proofs.NoPanic
import Verif.Props.Codec
import Verif.Props.Scalars
/-! # C07: panics on hostile input

`EnvOk` and `Ty.Ok` (`Spec/Classes.lean`) say that the user's own code does not panic and that derived
enums stay within the field limit of C25; `text` tells whether strings and serde byte buffers occur. -/

namespace Xdr

/-- The full statement of C07, for programs whose own code does not panic. -/
def NoPanics (env : Env) (t : Ty) : Prop :=
  ∀ n input p, fromBytes env n t input ≠ .panic p

theorem from_bytes_panic {α : Type} {d : De α} {input : Bytes} {p : PanicSite}
    (h : from_bytes d input = .panic p) : d input = .panic p := by
  unfold from_bytes at h
  split at h
  · split at h <;> simp at h
  · simp at h
  · rename_i hq; rw [hq]; simpa using h
  · simp at h

/-- C07 is false of the code: an unpadded string, or byte buffer, makes it panic. -/
theorem C07_violated :
    ¬ (∀ env t, EnvOk env true → t.Ok env true → NoPanics env t) := by
  intro h
  exact h (fun _ => none) .string (by intro n d hd; simp at hd) (by simp [Ty.Ok]) 1
    [0, 0, 0, 1, 97] .paddingSlice (by rfl)

/-- C07 for every type without strings and serde byte buffers. Missing from the full statement:
types with them. -/
theorem C07_no_panic_partial (env : Env) (t : Ty) (henv : EnvOk env false) (ht : t.Ok env false) :
    NoPanics env t := by
  intro n input p h
  exact (safe_deTy henv n t ht).run input (.inl rfl) p (from_bytes_panic h)

/-- C07 for every type, strings and byte buffers included, on inputs that are a whole number of XDR
units. Missing from the full statement: other inputs. -/
theorem C07_aligned_no_panic_partial (env : Env) (t : Ty) (henv : EnvOk env true)
    (ht : t.Ok env true) (n : Nat) (input : Bytes) (h4 : 4 ∣ input.length) (p : PanicSite) :
    fromBytes env n t input ≠ .panic p := fun h =>
  (safe_deTy henv n t ht).run input (.inr (by omega)) p (from_bytes_panic h)

theorem len_word {n : Nat} (hn : n < 2 ^ 32) :
    ∃ a b c d, Rfc.beBytes 4 n = [a, b, c, d] ∧ (ofBe32 a b c d).toNat = n := by
  have h1 := beBytes4 n
  have h2 := ofBe32_be32 (UInt32.ofNat n)
  have h3 : (UInt32.ofNat n).toNat = n := by rw [UInt32.toNat_ofNat', Nat.mod_eq_of_lt hn]
  generalize UInt32.ofNat n = w at h1 h2 h3
  rw [be32] at h1
  exact ⟨_, _, _, _, h1, by rw [h2, h3]⟩

theorem bytes_panics (env : Env) (m : Nat) (input : Bytes)
    (h : read_bytes input = .panic .paddingSlice) :
    fromBytes env (m + 1) .bytes input = .panic .paddingSlice := by
  simp only [fromBytes, from_bytes, deTy, deserialize_byte_buf]
  rw [M.bind_panic h]

theorem string_panics (env : Env) (m : Nat) (input : Bytes)
    (h : read_string input = .panic .paddingSlice) :
    fromBytes env (m + 1) .string input = .panic .paddingSlice := by
  simp only [fromBytes, from_bytes, deTy, deserialize_string]
  rw [M.bind_panic h]

/-- Every string, and byte buffer, that needs padding is a witness: its encoding cut anywhere in the
padding makes the reader panic. -/
theorem C07_unpadded_panics (env : Env) (m : Nat) (v : Bytes) (k : Nat) (hv : v.length < 2 ^ 32)
    (hk : k < (4 - v.length % 4) % 4) :
    fromBytes env (m + 1) .bytes (Rfc.beBytes 4 v.length ++ v ++ List.replicate k 0) =
      .panic .paddingSlice ∧
    ∀ s : List Char, s.flatMap String.utf8EncodeChar = v →
      fromBytes env (m + 1) .string (Rfc.beBytes 4 v.length ++ v ++ List.replicate k 0) =
        .panic .paddingSlice := by
  obtain ⟨a, b, c, d, e, hn⟩ := len_word hv
  rw [e]
  have e1 : [a, b, c, d] ++ v ++ List.replicate k 0 = a :: b :: c :: d :: (v ++ List.replicate k 0) := by
    simp
  rw [e1]
  clear e e1
  have hlen : (v ++ List.replicate k (0 : UInt8)).length = v.length + k := by simp
  have hk' : k < padLen v.length := hk
  constructor
  · have : read_bytes (a :: b :: c :: d :: (v ++ List.replicate k 0)) = .panic .paddingSlice := by
      rw [read_bytes_run a b c d _ _ hn, hlen, if_neg (by omega), if_pos (by omega)]
    exact bytes_panics env m _ this
  · intro s hs
    rw [← utf8Bytes_core] at hs
    have : read_string (a :: b :: c :: d :: (v ++ List.replicate k 0)) = .panic .paddingSlice := by
      rw [read_string_run a b c d _ _ hn, hlen, if_neg (by omega), List.take_left, ← hs,
        utf8Decode_bytes]
      simp only [hs]
      rw [if_pos (by omega)]
    exact string_panics env m _ this

theorem Sample.envOk : EnvOk Sample.env true := by
  intro name d h
  unfold Sample.env at h
  split at h
  · simp only [Option.some.injEq] at h; subst h
    simp [Def.Ok, Def.types, TysOk, Ty.Ok, Sample.env]
  · split at h
    · simp only [Option.some.injEq] at h; subst h
      simp [Def.Ok, Def.types, TysOk, Ty.Ok, Shape.types]
    · split at h
      · simp only [Option.some.injEq] at h; subst h
        refine ⟨by simp [Def.types, TysOk, Ty.Ok], ?_, by simp⟩
        intro i
        simp only []
        split
        · exact .inl ⟨_, rfl, by simp⟩
        · split
          · exact .inl ⟨_, rfl, by simp⟩
          · exact .inr ⟨_, rfl⟩
      · split at h
        · simp only [Option.some.injEq] at h; subst h
          refine ⟨by simp [Def.types, TysOk, Ty.Ok], ?_, by simp⟩
          intro n b v _
          simp only []
          split
          · exact .inl ⟨_, rfl, by simp⟩
          · exact .inl ⟨_, rfl, by simp⟩
        · simp at h

example (n : Nat) (input : Bytes) (h4 : 4 ∣ input.length) (p : PanicSite) :
    fromBytes Sample.env n Sample.ty input ≠ .panic p :=
  C07_aligned_no_panic_partial _ _ Sample.envOk
    (by simp [Sample.ty, Ty.Ok, TysOk, Sample.env]) n input h4 p

example : fromBytes Sample.env 3 .string [0, 0, 0, 2, 195, 169] = .panic .paddingSlice :=
  (C07_unpadded_panics Sample.env 2 [195, 169] 0 (by decide) (by decide)).2 ['é'] (by decide)

end Xdr
