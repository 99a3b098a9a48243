import Verif.Proofs.Reserve
import Verif.Props.Accepted
/-! # Property C75: memory requested before the data is there -/

namespace Xdr

/-- C75. The decoder that adds up amounts is the decoder. -/
theorem C75_same (env : Env) (size : Ty → Nat) (n : Nat) (t : Ty) (b : Bytes) :
    (deTyA env size n t b).2 = deTy env n t b := congrFun (run_deTy env size n t) b

/-- C75. When decoding succeeds, what was requested in advance is at most one element, of `S` bytes,
for every four bytes of input, and one byte of opaque data for each byte of input. -/
theorem C75_accepted (env : Env) (size : Ty → Nat) (S n : Nat) (t : Ty) (b : Bytes) (v : Val)
    (h : fromBytes env n t b = .ok v) (hl : ListsWithin env size S t) :
    4 * reserved env size n t b ≤ S * b.length + 4 * b.length := by
  have hr := from_bytes_eq_ok h
  have hc := cost_deTy (F := none) n t ⟨hl, fun f hf => by cases hf⟩ b
  rw [← C75_same env size] at hr
  unfold reserved
  rcases hx : deTyA env size n t b with ⟨c, r⟩
  rw [hx] at hc hr
  dsimp only at hr
  subst hr
  have := hc.2
  rw [Nat.add_mul S 4 b.length] at this
  dsimp only
  omega

/-- Whatever the outcome, opaque data of variable length included. -/
theorem C75_all (env : Env) (size : Ty → Nat) (S F n : Nat) (t : Ty) (b : Bytes)
    (hl : ListsWithin env size S t) (ho : ∀ len, Reaches env t (.opaqueFixed len) → len ≤ F)
    (hF : 2 ^ 32 - 1 ≤ F ∨ ¬ Reaches env t .opaqueVar) :
    4 * reserved env size n t b ≤
      S * b.length + 4 * b.length + 4 * (2 ^ 20 * min n (b.length / 4)) + 4 * F := by
  have hc := cost_deTy (F := some F) n t ⟨hl, fun f hf => by
    cases hf
    exact ⟨ho, fun hr => hF.elim id fun h => absurd hr h⟩⟩ b
  unfold reserved
  rcases hx : deTyA env size n t b with ⟨c, ⟨a, r⟩ | e | p | _⟩ <;> rw [hx] at hc
  · have := hc.2
    rw [Nat.add_mul S 4 b.length] at this
    dsimp only
    omega
  all_goals
    have := hc F rfl
    rw [Nat.add_mul S 4 b.length] at this
    dsimp only
    omega

/-- C75. Whatever the outcome, on every input: when opaque data are of fixed length, at most `F`,
what is requested in advance is in addition at most 1 MiB for every level of nesting, and for every
word of input, and `F` once. What is missing: opaque data of variable length. -/
theorem C75_reserved_partial (env : Env) (size : Ty → Nat) (S F n : Nat) (t : Ty) (b : Bytes)
    (hl : ListsWithin env size S t) (ho : OpaquesFixed env F t) :
    4 * reserved env size n t b ≤
      S * b.length + 4 * b.length + 4 * (2 ^ 20 * min n (b.length / 4)) + 4 * F :=
  C75_all env size S F n t b hl ho.1 (.inr ho.2)

/-! ## Cases -/

/-- A list of types that contains the types of the parts of its types. -/
theorem Reaches.within {env : Env} {t u : Ty} (h : Reaches env t u) {P : Ty → Prop} (ht : P t)
    (hc : ∀ x, P x → ∀ y ∈ x.parts env, P y) : P u := by
  induction h with
  | refl => exact ht
  | tail _ h ih => exact hc _ ih _ h

namespace Sample

/-- A type with lists, in lists and in a recursive type. -/
def tree : Ty := .named "Tree"

def forest : Env := fun name =>
  if name = "Tree" then
    some (.struct [("label", .string), ("key", .opaqueFixed 8), ("points", .vec (.vec .u16)),
      ("children", .vec (.named "Tree"))])
  else none

/-- 64-bit sizes of the element types. -/
def sizes : Ty → Nat
  | .u16 => 2
  | .vec _ => 24
  | .named _ => 80
  | _ => 0

theorem forest_reaches {u : Ty} (h : Reaches forest tree u) :
    u = tree ∨ u = .string ∨ u = .opaqueFixed 8 ∨ u = .vec (.vec .u16) ∨ u = .vec .u16 ∨ u = .u16 ∨
      u = .vec tree := by
  refine h.within (P := fun u => u = tree ∨ u = .string ∨ u = .opaqueFixed 8 ∨ u = .vec (.vec .u16) ∨
    u = .vec .u16 ∨ u = .u16 ∨ u = .vec tree) (.inl rfl) ?_
  rintro x (rfl | rfl | rfl | rfl | rfl | rfl | rfl) y hy <;>
    simp [tree, Ty.parts, forest, Def.types] at hy ⊢ <;> tauto

theorem forest_lists : ListsWithin forest sizes 80 tree := by
  intro e he
  rcases forest_reaches he with h | h | h | h | h | h | h <;> cases h
  · exact ⟨by decide, .inr (.vec _)⟩
  · exact ⟨by decide, .inr .u16⟩
  · exact ⟨by decide, .inr (.struct (fs := [("label", .string), ("key", .opaqueFixed 8),
      ("points", .vec (.vec .u16)), ("children", .vec (.named "Tree"))]) rfl (.head .string))⟩

theorem forest_opaques : OpaquesFixed forest 8 tree := by
  refine ⟨fun len h => ?_, fun h => ?_⟩
  · rcases forest_reaches h with h | h | h | h | h | h | h <;> cases h
    exact Nat.le_refl _
  · rcases forest_reaches h with h | h | h | h | h | h | h <;> cases h

/-- One leaf `"a"` with one point list `[7, 8]`. -/
def leaf : Bytes := [0, 0, 0, 1, 97, 0, 0, 0, 1, 2, 3, 4, 5, 6, 7, 8, 0, 0, 0, 1, 0, 0, 0, 2, 0, 0, 0, 7,
  0, 0, 0, 8, 0, 0, 0, 0]

end Sample

example : reserved Sample.forest Sample.sizes 9 Sample.tree Sample.leaf = 8 + 24 + 2 * 2 := by
  decide +kernel

/-- A list that says it has 65536 elements where there is one, twice, one inside the other. -/
example : reserved Sample.forest Sample.sizes 9 (.vec (.vec .u16)) [0, 1, 0, 0, 0, 1, 0, 0, 0, 0, 0, 7] =
    43690 * 24 + 2 * 65536 ∧ 43690 * 24 ≤ 2 ^ 20 := by decide +kernel

example (n : Nat) (b : Bytes) : 4 * reserved Sample.forest Sample.sizes n Sample.tree b ≤
    80 * b.length + 4 * b.length + 4 * (2 ^ 20 * min n (b.length / 4)) + 4 * 8 :=
  C75_reserved_partial _ _ _ _ n _ b Sample.forest_lists Sample.forest_opaques

/-! ## Opaque data of variable length -/

theorem read_count (count : UInt32) (rest : Bytes) :
    read_u32 (Rfc.beBytes 4 count.toNat ++ rest) = .ok (count, rest) := by
  have := reads_u32 count rest
  rwa [← UInt32.ofNat_toNat (x := count), ← beBytes4, UInt32.ofNat_toNat] at this

/-- The count of opaque data of variable length is the amount requested, whatever follows. -/
theorem reserved_opaque (env : Env) (size : Ty → Nat) (n : Nat) (count : UInt32) (rest : Bytes) :
    reserved env size (n + 1) .opaqueVar (Rfc.beBytes 4 count.toNat ++ rest) = count.toNat := by
  have e : ∀ (m : A Val) (r : Res (UInt32 × Bytes)) (f : UInt32 → A Val) (s : Bytes),
      m = (A.lift read_u32 >>= f) → read_u32 s = r → r = .ok (count, rest) →
      (m s).1 = (f count rest).1 := by
    intro m r f s hm hr hr'
    subst hm
    rw [A.bind_def]
    have : A.lift read_u32 s = (0, .ok (count, rest)) := by rw [← hr', ← hr]; rfl
    rw [this]
    exact Nat.zero_add _
  unfold reserved
  rw [deTyA, e _ _ _ _ rfl rfl (read_count count rest), A.bind_def]
  have h : enumerate_u8A { count := count.toNat } rest = (count.toNat,
    enumerate_u8_loop count.toNat ((count.toNat + 3) / 4) { count := count.toNat }
      (List.replicate count.toNat 0, 0) rest) := rfl
  rw [h]
  rcases enumerate_u8_loop count.toNat ((count.toNat + 3) / 4) { count := count.toNat }
      (List.replicate count.toNat 0, 0) rest with ⟨a, r⟩ | e | p | _ <;> rfl

/-- C75 fails: an opaque of variable length requests what its count says before anything of it is
there. Four bytes request 4 GiB less one byte, and then decoding fails. -/
theorem C75_opaque_violated (env : Env) (size : Ty → Nat) (n : Nat) :
    reserved env size (n + 1) .opaqueVar [255, 255, 255, 255] = 2 ^ 32 - 1 ∧
    ∃ e, fromBytes env (n + 1) .opaqueVar [255, 255, 255, 255] = .err e := by
  constructor
  · have h := reserved_opaque env size n 4294967295 []
    have e : Rfc.beBytes 4 (4294967295 : UInt32).toNat ++ [] = [255, 255, 255, 255] := by decide +kernel
    rw [e] at h
    rw [h]
    decide +kernel
  · exact ⟨.notEnoughData 4, rfl⟩

/-- So the bound for types without such data does not hold, even with `F` a gigabyte. -/
theorem C75_bound_violated (env : Env) (size : Ty → Nat) : ¬ ∀ b,
    4 * reserved env size 1 .opaqueVar b ≤
      80 * b.length + 4 * b.length + 4 * (2 ^ 20 * min 1 (b.length / 4)) + 4 * 2 ^ 30 := by
  intro hb
  have h1 := hb [255, 255, 255, 255]
  rw [(C75_opaque_violated env size 0).1] at h1
  simp only [List.length_cons, List.length_nil] at h1
  omega

/-- C75 for generated code: a maximum in the interface does not help. -/
theorem C75_generated_violated (size : Ty → Nat) : ∃ file defs,
    Rpcgen.run 5 c!"struct s { opaque o<16>; };" {} = .printed file ∧ file.defs = some defs ∧
    reserved (program defs) size 9 (.named "S") [255, 255, 255, 255] = 2 ^ 32 - 1 := by
  refine ⟨_, _, rfl, rfl, ?_⟩
  rfl

end Xdr
