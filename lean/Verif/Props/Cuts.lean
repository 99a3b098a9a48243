import Verif.Proofs.Cuts
import Verif.Props.Decoding
/-!
# C06, C07: what happens at each place where a message can be cut

With `Spec/Cuts.lean`: the pieces of an encoding, and what is missing at each place.
-/

namespace Xdr

theorem cuts_pieces {env : Env} {t : Ty} {v : Val} {b : Bytes} {n : Nat} (h : toBytes env t v = .ok b)
    (hf : Fits env t v) (hd : v.depth < n) : Cuts (deTy env n t) b v (pieces env t v) := by
  unfold toBytes at h
  unfold pieces
  split at h
  · rename_i s hs
    rw [hs]
    exact cuts_aux (present_sound env t v s hs) hf hd h
  · simp at h

/-- C06: a value written and then cut off after `k` bytes. The error says how many bytes are missing of
the unit, of the length, or of the bytes of the text in which the cut is; a cut in the padding of a string
or byte buffer makes the reader panic. -/
theorem C06_exact (env : Env) (n : Nat) (t : Ty) (v : Val) (b : Bytes) (k : Nat)
    (hf : Fits env t v) (hd : v.depth < n) (h : toBytes env t v = .ok b) (hk : k < b.length) :
    fromBytes env n t (b.take k) = match stopAt (pieces env t v) k with
      | .missing m => .err (.notEnoughData m)
      | .inPadding => .panic .paddingSlice := by
  have hc := (cuts_pieces h hf hd).stops k hk
  simp only [fromBytes, from_bytes]
  rw [hc]
  cases stopAt (pieces env t v) k <;> rfl

/-- The pieces are the whole encoding. -/
theorem C06_pieces (env : Env) (t : Ty) (v : Val) (b : Bytes) (hf : Fits env t v)
    (h : toBytes env t v = .ok b) : piecesSize (pieces env t v) = b.length :=
  (cuts_pieces h hf (Nat.lt_succ_self v.depth)).size.symm

/-- C07 for beginnings of messages: the reader panics exactly if the message ends in the padding of a
string or byte buffer. -/
theorem C07_cut_exact (env : Env) (n : Nat) (t : Ty) (v : Val) (b : Bytes) (k : Nat)
    (hf : Fits env t v) (hd : v.depth < n) (h : toBytes env t v = .ok b) (hk : k ≤ b.length) :
    (∃ p, fromBytes env n t (b.take k) = .panic p) ↔
      k < b.length ∧ stopAt (pieces env t v) k = .inPadding := by
  by_cases hlt : k < b.length
  · rw [C06_exact env n t v b k hf hd h hlt]
    cases stopAt (pieces env t v) k <;> simp [hlt]
  · rw [List.take_of_length_le (by omega), C01_roundtrip env t v b n hf hd h]
    simp [hlt]

/-! ## Cases -/

/-- The pieces of the sample: 19 and 21 of its bytes end in padding and in a unit. -/
example : toBytes Sample.env Sample.ty Sample.val = .ok Sample.bytes ∧
    stopAt (pieces Sample.env Sample.ty Sample.val) 19 = .inPadding ∧
    stopAt (pieces Sample.env Sample.ty Sample.val) 21 = .missing 3 ∧
    fromBytes Sample.env 6 Sample.ty (Sample.bytes.take 19) = .panic .paddingSlice ∧
    fromBytes Sample.env 6 Sample.ty (Sample.bytes.take 21) = .err (.notEnoughData 3) := by
  have h19 : stopAt (pieces Sample.env Sample.ty Sample.val) 19 = .inPadding := by decide +kernel
  have h21 : stopAt (pieces Sample.env Sample.ty Sample.val) 21 = .missing 3 := by decide +kernel
  refine ⟨Sample.toBytes_val, h19, h21, ?_, ?_⟩
  · rw [C06_exact _ 6 _ _ _ _ Sample.fits_val (by decide +kernel) Sample.toBytes_val (by decide +kernel), h19]
  · rw [C06_exact _ 6 _ _ _ _ Sample.fits_val (by decide +kernel) Sample.toBytes_val (by decide +kernel), h21]

/-- `(String, u64)` with the text `hello`: 4 and 5 bytes of a length and text, 3 of padding, 8 of a number. -/
example : pieces (fun _ => none) (.tuple [.string, .u64]) (.seq [.str "hello".toList, .u64 7]) =
      [.text 5, .unit 8] ∧
    (List.range 20).map (stopAt [.text 5, .unit 8]) =
      [.missing 4, .missing 3, .missing 2, .missing 1, .missing 5, .missing 4, .missing 3, .missing 2,
       .missing 1, .inPadding, .inPadding, .inPadding, .missing 8, .missing 7, .missing 6, .missing 5,
       .missing 4, .missing 3, .missing 2, .missing 1] := by
  decide +kernel

end Xdr
