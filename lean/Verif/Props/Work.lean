import Verif.Proofs.Work
import Verif.Props.Reserve
/-! # Property C81: the work of decoding -/

namespace Xdr

/-- C81. The decoder that counts is the decoder. -/
theorem C81_same (env : Env) (n : Nat) (t : Ty) (b : Bytes) :
    (deTyW env n t b).2 = deTy env n t b := congrFun (run_deTyW env n t) b

/-- C81. Whatever the outcome, the `Deserialize` impls called and the words of opaque data copied are
at most the parts every value of the type has, and for every four bytes of input three times the parts
of what an option contains, of an element of a list, of an entry of a map or of the fields of a
variant. What is missing: lists whose elements take no bytes, and unions whose discriminant is not
simple. -/
theorem C81_work_partial (env : Env) (W k n : Nat) (t : Ty) (b : Bytes) (hW : 1 ≤ W)
    (hk : Weighs env t k) (hg : GroupsWithin env W t) (he : ElementsSized env t)
    (hd : DiscriminantsSimple env t) :
    4 * work env n t b ≤ 4 * k + 3 * W * b.length := by
  have h := toll_deTy hW n t ⟨hg, he, hd⟩ k hk b
  unfold work
  rcases hx : deTyW env n t b with ⟨c, ⟨a, r⟩ | e | p | _⟩ <;> rw [hx] at h <;>
    simp only [Due] at h ⊢ <;> omega

/-! ## Cases -/

namespace Sample

/-- A tree is itself, its label, its key and its two lists. -/
theorem forest_weighs : Weighs forest tree (1 + (1 + 0 + (1 + 0 + (1 + 0 + (1 + 0 + 0))))) :=
  .mk (.cons (.mk .nil) (.cons (.mk .nil) (.cons (.mk .nil) (.cons (.mk .nil) .nil))))

theorem forest_groups : GroupsWithin forest 5 tree := by
  intro u hu g hg
  rcases forest_reaches hu with h | h | h | h | h | h | h <;> subst h <;>
    simp [tree, Ty.groups, forest] at hg <;> subst hg
  · exact ⟨_, by omega, .cons (.mk .nil) .nil⟩
  · exact ⟨_, by omega, .cons (.mk .nil) .nil⟩
  · exact ⟨_, Nat.le_refl _, .cons forest_weighs .nil⟩

theorem forest_sized : ElementsSized forest tree := by
  constructor
  · intro e he
    rcases (forest_lists e he).2 with h | h
    · rcases forest_reaches he with g | g | g | g | g | g | g <;> cases g <;> simp [sizes, tree] at h
    · exact h
  · intro k v h
    rcases forest_reaches h with h | h | h | h | h | h | h <;> cases h

theorem forest_simple : DiscriminantsSimple forest tree := by
  intro name disc vars impl hr he
  rcases forest_reaches hr with h | h | h | h | h | h | h <;> cases h
  simp [forest] at he

end Sample

example (n : Nat) (b : Bytes) : 4 * work Sample.forest n Sample.tree b ≤ 4 * 5 + 3 * 5 * b.length :=
  C81_work_partial _ _ _ n _ b (by omega) Sample.forest_weighs Sample.forest_groups Sample.forest_sized
    Sample.forest_simple

/-- The tree, its four fields, the list of points and its two elements, and the two words of the key. -/
example : work Sample.forest 9 Sample.tree Sample.leaf = 1 + 4 + 1 + 2 + 2 := by decide +kernel

/-- An enum and a union too: the union's discriminant is the enum. -/
example : work (fun name =>
      if name = "E" then some (.enum [("A", .unit), ("B", .tuple [.u32, .bool])])
      else if name = "U" then some (.union (.named "E") [("X", some [.named "E", .u64, .unit])]
        { name_by_value := fun _ => .ok "X" })
      else none) 9 (.named "U") [0, 0, 0, 1, 0, 0, 0, 5, 0, 0, 0, 1, 0, 0, 0, 0, 0, 0, 0, 9] =
    1 + (1 + 2) + 2 := by decide +kernel

/-! ## Elements that take no bytes -/

theorem visitVec_free {d : A Val} {w : Nat} {v : Val} (h : ∀ s, d s = (w, .ok (v, s))) :
    ∀ (c : Nat) (s : Bytes), visitVecA d (c + 1) { count := c } s = (c * w, .ok (List.replicate c v, s)) := by
  intro c
  induction c with
  | zero =>
    intro s
    rw [visitVecA, next_bind_none, Nat.zero_mul]; rfl
  | succ c ih =>
    intro s
    rw [visitVecA, next_bind, A.bind_def, h]
    dsimp only
    rw [A.bind_def, ih]
    show (w + (c * w + 0), _) = _
    rw [Nat.succ_mul, Nat.add_zero, Nat.add_comm]; rfl

theorem deTyW_vec {env : Env} {n : Nat} {t : Ty} {s r q : Bytes} {count : UInt32} {k : Nat} {vs : List Val}
    (hr : read_u32 s = .ok (count, r))
    (hv : visitVecA (deTyW env n t) (count.toNat + 1) { count := count.toNat } r = (k, .ok (vs, q))) :
    deTyW env (n + 1) (.vec t) s = (1 + k, .ok (.seq vs, q)) := by
  rw [deTyW, A.bind_def]
  have hl : A.lift read_u32 s = (0, .ok (count, r)) := by rw [← hr]; rfl
  have hs : A.step s = (1, .ok ((), s)) := rfl
  rw [hs]
  dsimp only
  rw [A.bind_def, hl]
  dsimp only
  rw [A.bind_def, hv]
  dsimp only
  have hp : ∀ (v : Val) (s : Bytes), (Pure.pure v : A Val) s = (0, .ok (v, s)) := fun _ _ => rfl
  rw [hp, Nat.add_zero, Nat.zero_add]

theorem from_bytes_nil {d : De Val} {b : Bytes} {v : Val} (h : d b = .ok (v, [])) :
    from_bytes d b = .ok v := by
  unfold from_bytes; rw [h]; rfl

/-- C81 fails: the count of a list whose elements take no bytes is the work, whatever follows, and
decoding succeeds. -/
theorem C81_units_violated (env : Env) (n : Nat) (count : UInt32) :
    work env (n + 2) (.vec .unit) (Rfc.beBytes 4 count.toNat) = 1 + count.toNat ∧
    fromBytes env (n + 2) (.vec .unit) (Rfc.beBytes 4 count.toNat) =
      .ok (.seq (List.replicate count.toNat .unit)) := by
  have hr := read_count count []
  rw [List.append_nil] at hr
  have hw := deTyW_vec (env := env) (n := n + 1) (t := .unit) hr
    (visitVec_free (w := 1) (v := .unit) (fun s => rfl) count.toNat [])
  rw [Nat.mul_one] at hw
  constructor
  · unfold work; rw [hw]
  · have h := C81_same env (n + 2) (.vec .unit) (Rfc.beBytes 4 count.toNat)
    rw [hw] at h
    exact from_bytes_nil h.symm

/-- So the bound does not hold for all types: four bytes make the decoder call 2^32 impls. -/
theorem C81_bound_violated : ¬ ∀ env W k n t b, 1 ≤ W → Weighs env t k → GroupsWithin env W t →
    DiscriminantsSimple env t → 4 * work env n t b ≤ 4 * k + 3 * W * b.length := by
  intro h
  have reach : ∀ u, Reaches (fun _ => none) (.vec .unit) u → u = .vec .unit ∨ u = .unit := by
    intro u hu
    refine hu.within (P := fun u => u = .vec .unit ∨ u = .unit) (.inl rfl) ?_
    rintro x (rfl | rfl) y hy <;> simp [Ty.parts] at hy ⊢
    exact .inr hy
  have key : ∀ count : UInt32, ¬ 4 < count.toNat := by
    intro count hc
    have h1 := h (fun _ => none) 1 (1 + 0) (0 + 2) (.vec .unit) (Rfc.beBytes 4 count.toNat)
      (Nat.le_refl _) (.mk .nil)
      (by
        intro u hu g hg
        rcases reach u hu with rfl | rfl <;> simp [Ty.groups] at hg
        subst hg
        exact ⟨_, by omega, .cons (.mk .nil) .nil⟩)
      (by intro name disc vars impl hr he; simp at he)
    have hl : (Rfc.beBytes 4 count.toNat).length = 4 := by simp [Rfc.beBytes]
    rw [(C81_units_violated _ 0 count).1, hl] at h1
    omega
  exact key 4294967295 (by decide +kernel)

/-- C81 for generated code: an array without elements is such an element. -/
theorem C81_generated_violated : ∃ file defs,
    Rpcgen.run 5 c!"typedef int z[0]; struct s { z l<>; };" {} = .printed file ∧ file.defs = some defs ∧
    work (program defs) 9 (.named "S") [0, 0, 0, 9] = 1 + 1 + 9 ∧
    fromBytes (program defs) 9 (.named "S") [0, 0, 0, 9] =
      .ok (.seq [.seq (List.replicate 9 (.seq []))]) := by
  refine ⟨_, _, rfl, rfl, ?_, ?_⟩
  · rfl
  · rfl

end Xdr
