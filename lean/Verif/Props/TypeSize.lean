import Verif.Props.Form
import Verif.Proofs.TypeSize
/-!
# Property C98: the sizes of messages follow from the Rust types

`Wire.TypeSize` (`Spec/TypeSize.lean`) is a table of the least and the greatest number of bytes for the types a user may
serialise, with or without the generator.
-/

namespace Xdr

/-- C98: no input is accepted that is shorter or longer than the table says. -/
theorem C98_accepted {env : Env} {t : Ty} {lo : Nat} {hi : Option Nat} (hs : Wire.TypeSize env t lo hi)
    {n : Nat} {b : Bytes} {v : Val} (h : fromBytes env n t b = .ok v) :
    lo ≤ b.length ∧ ∀ k, hi = some k → b.length ≤ k :=
  hs.form ((C84_accepted env t v b).mp ⟨n, h⟩)

/-- C98: of a longer input a reader takes that many bytes. -/
theorem C98_taken {env : Env} {t : Ty} {lo : Nat} {hi : Option Nat} (hs : Wire.TypeSize env t lo hi)
    {n : Nat} {input rest : Bytes} {v : Val} (h : deTy env n t input = .ok (v, rest)) :
    ∃ bs, input = bs ++ rest ∧ lo ≤ bs.length ∧ ∀ k, hi = some k → bs.length ≤ k := by
  obtain ⟨bs, e, f⟩ := (C84_front env t v input rest).mp ⟨n, h⟩
  exact ⟨bs, e, hs.form f⟩

/-- C98: no message is written that is shorter or longer. -/
theorem C98_written {env : Env} {t : Ty} {lo : Nat} {hi : Option Nat} (hs : Wire.TypeSize env t lo hi)
    {v : Val} {b : Bytes} (hf : Fits env t v) (h : toBytes env t v = .ok b) :
    lo ≤ b.length ∧ ∀ k, hi = some k → b.length ≤ k :=
  hs.form (C84_written env t v b hf h)

/-- C98: if the limits are the same, so are the lengths of all messages. -/
theorem C98_one_size {env : Env} {t : Ty} {k : Nat} (hs : Wire.TypeSize env t k (some k))
    {n m : Nat} {b c : Bytes} {v w : Val} (hb : fromBytes env n t b = .ok v) (hc : fromBytes env m t c = .ok w) :
    b.length = c.length := by
  have := C98_accepted hs hb
  have := C98_accepted hs hc
  have := this.2 _ rfl
  have := (C98_accepted hs hb).2 _ rfl
  omega

/-- C98: the number of elements of a `Vec` of a type of one size follows from the length of the message. -/
theorem C98_vec {env : Env} {t : Ty} {k : Nat} (hs : Wire.TypeSize env t k (some k))
    {n : Nat} {b : Bytes} {v : Val} (h : fromBytes env n (.vec t) b = .ok v) :
    ∃ vs, v = .seq vs ∧ b.length = 4 + vs.length * k := by
  have f := (C84_accepted env _ v b).mp ⟨n, h⟩
  cases f with
  | @vec _ c vs bs _ f =>
    have h1 := Wire.within_elements (fun f => hs.form f) f
    have h2 : _ ≤ c * k := h1.2 _ rfl
    have h3 := h1.1
    refine ⟨vs, rfl, ?_⟩
    rw [List.length_append, Wire.length_word, Wire.length_elements f]
    omega

/-! ## Examples -/

/-- An enum with one variant of no size limit: 4 bytes at least. -/
theorem Sample.color_size : Wire.TypeSize Sample.env (.named "Color") 4 none := by
  refine .enum (lo := 0) (hi := none) rfl fun x hx => ?_
  simp only [List.mem_cons, List.not_mem_nil, or_false] at hx
  rcases hx with rfl | rfl | rfl
  · exact .wider .nil (Nat.le_refl _) nofun
  · exact .wider (.cons .any .nil) (Nat.zero_le _) nofun
  · exact .wider (.cons .any (.cons .any .nil)) (Nat.zero_le _) nofun

/-- A word of the discriminant at least, and of the number of an indexer. -/
example : Wire.TypeSize Sample.env (.named "Un") 4 none ∧ Wire.TypeSize Sample.env (.named "Ix") 4 none := by
  constructor
  · refine .union (l := 4) (lo := 0) (h := some 4) (hi := none) rfl (.word (by simp)) fun x hx => ?_
    simp only [List.mem_cons, List.not_mem_nil, or_false] at hx
    rcases hx with rfl | rfl
    · exact .wider (.cons .any .nil) (Nat.zero_le _) nofun
    · exact .wider .nil (Nat.le_refl _) nofun
  · refine .indexer (lo := 0) (hi := none) rfl fun x hx => ?_
    simp only [List.mem_cons, List.not_mem_nil, or_false] at hx
    rcases hx with rfl | rfl
    · exact .wider .nil (Nat.le_refl _) nofun
    · exact .wider (.cons .any (.cons .any .nil)) (Nat.zero_le _) nofun

/-- A point of a map, a flag, perhaps a weight: 24 to 32 bytes. -/
def Sample.point : Ty := .tuple [.array 2 .i64, .bool, .option .f64]

theorem Sample.point_size : Wire.TypeSize Sample.env Sample.point 24 (some 32) :=
  .tuple (.cons (.array (n := 2) (.dword (by simp))) (.cons (.word (by simp))
    (.cons (.option (.dword (by simp))) .nil)))

/-- Both limits are met. -/
example : toBytes Sample.env Sample.point (.seq [.seq [.i64 1, .i64 (-2)], .bool true, .none]) =
      .ok [0, 0, 0, 0, 0, 0, 0, 1, 255, 255, 255, 255, 255, 255, 255, 254, 0, 0, 0, 1, 0, 0, 0, 0] ∧
    toBytes Sample.env Sample.point (.seq [.seq [.i64 1, .i64 (-2)], .bool true, .some (.f64 0)]) =
      .ok [0, 0, 0, 0, 0, 0, 0, 1, 255, 255, 255, 255, 255, 255, 255, 254, 0, 0, 0, 1, 0, 0, 0, 1,
        0, 0, 0, 0, 0, 0, 0, 0] := by
  decide +kernel

/-- No message of 20 bytes is a point, whatever it contains. -/
example (n : Nat) (b : Bytes) (hb : b.length = 20) (v : Val) : fromBytes Sample.env n Sample.point b ≠ .ok v := by
  intro h
  have := (C98_accepted Sample.point_size h).1
  omega

/-- Twenty-eight bytes hold two triples of words. -/
example (n : Nat) (b : Bytes) (hb : b.length = 28) (v : Val)
    (h : fromBytes Sample.env n (.vec (.array 3 .u16)) b = .ok v) : ∃ vs, v = .seq vs ∧ vs.length = 2 := by
  obtain ⟨vs, rfl, e⟩ := C98_vec (k := 12) (.array (n := 3) (.word (by simp))) h
  exact ⟨vs, rfl, by omega⟩

end Xdr
