import Verif.RpcgenProofs.Elements
import Verif.Props.GenReturns
/-!
# Property C94: the work of generated decoders is linear

C81 counts the `Deserialize` impls called and the words of opaque data copied, for programs in which what is inside
an option, a list or a variant is bounded. Here the bound comes from the interface.
-/

namespace Xdr

/-- C81 without the bound on groups: a program in which no type contains itself except through an `Option`, a `Vec`, a
map or a variant has one. What is missing is what `C81_work_partial` misses. -/
theorem C81_linear_partial (defs : List (String × Def)) (t : Ty)
    (hguarded : ∀ x, ¬ Relation.TransGen (Refers (program defs)) x x)
    (he : ElementsSized (program defs) t) (hd : DiscriminantsSimple (program defs) t) :
    ∃ K, ∀ (n : Nat) (b : Bytes), work (program defs) n t b ≤ K * (b.length / 4 + 1) := by
  obtain ⟨k, hk⟩ := weighs hguarded t
  obtain ⟨W, hW, hg⟩ := groups_within hguarded t
  refine ⟨k + 3 * W, fun n b => ?_⟩
  have h := C81_work_partial _ W k n t b hW hk hg he hd
  have h1 : 3 * W * b.length ≤ 3 * W * (4 * (b.length / 4 + 1)) := Nat.mul_le_mul_left _ (by omega)
  have h2 : k ≤ k * (b.length / 4 + 1) := Nat.le_mul_of_pos_right _ (by omega)
  have h3 : 3 * W * (4 * (b.length / 4 + 1)) = 4 * (3 * W * (b.length / 4 + 1)) := by
    rw [Nat.mul_left_comm]
  rw [Nat.add_mul]
  omega

end Xdr

namespace Xdr.Rpcgen

/-- C94: no structure of the interface being its own member and no array being empty, the work of decoding is at most
proportional to the length of the input, whatever the input and the outcome. -/
theorem C94_work {n : Nat} {s : Str} {flags : Flags} {file : RustFile} (h : run n s flags = .printed file)
    {defs : List (String × Def)} (hd : file.defs = some defs) (hsz : file.Sized) :
    ∃ ds, parse s = .ok ds ∧ (NoSelfMembers ds → NoEmptyArrays ds → ∀ ty, ∃ K, ∀ (m : Nat) (input : Bytes),
      work (Xdr.program defs) m (.named ty) input ≤ K * (input.length / 4 + 1)) := by
  obtain ⟨ds, hp, hg⟩ := run_ok h
  refine ⟨ds, hp, fun hns hne ty => ?_⟩
  have hva := variableArray_lookup hg hd
  have hgu := guarded hd hva hsz (gen_boxes rfl hg hns)
  have hfull := item_full rfl (parseWith_text hp) hne hg
  exact C81_linear_partial defs (.named ty) hgu (elements_sized (fun x d hx => types_Elems hd hva hgu hfull hx) ty)
    fun name disc vars impl _ hx => disc_Simple hd hx

/-- C94 with C89: with a recursion depth proportional to the length of the input, decoding returns, and has not done
more work than that either. -/
theorem C94_returns {n : Nat} {s : Str} {flags : Flags} {file : RustFile} (h : run n s flags = .printed file)
    {defs : List (String × Def)} (hd : file.defs = some defs) (hsz : file.Sized) :
    ∃ ds, parse s = .ok ds ∧ (NoSelfMembers ds → NoEmptyArrays ds → ∀ ty, ∃ K, ∀ (input : Bytes) (m : Nat),
      K * (input.length / 4 + 1) ≤ m → fromBytes (Xdr.program defs) m (.named ty) input ≠ .depth ∧
        work (Xdr.program defs) m (.named ty) input ≤ K * (input.length / 4 + 1)) := by
  obtain ⟨ds, hp, h1⟩ := C94_work h hd hsz
  obtain ⟨ds', hp', h2⟩ := C89_returns h hd hsz
  cases hp.symm.trans hp'
  refine ⟨ds, hp, fun hns hne ty => ?_⟩
  obtain ⟨K, hK⟩ := h1 hns hne ty
  obtain ⟨L, hL⟩ := h2 hns ty
  refine ⟨K + L, fun input m hm => ?_⟩
  rw [Nat.add_mul] at hm ⊢
  exact ⟨hL input m (by omega), Nat.le_trans (hK m input) (by omega)⟩

/-- C94 for the printed text of a proper interface (`C73_whole`). -/
theorem C94_whole {s : Str} {ds : List Definition} (hp : parse s = .ok ds) {flags : Flags}
    (h : Proper ds flags.config) (hns : NoSelfMembers ds) (hne : NoEmptyArrays ds) :
    ∃ out defs, (∀ n, (definedNames ds).length < n → ds.length < n → output n s flags = some out) ∧
      rustDefs out = some defs ∧ ∀ ty, ∃ K, ∀ (m : Nat) (input : Bytes),
        work (Xdr.program defs) m (.named ty) input ≤ K * (input.length / 4 + 1) := by
  obtain ⟨file, out, defs, h1, ⟨⟨defs', hd⟩, hsz, -⟩, h3, -⟩ := C73_whole hp h
  let m := max (definedNames ds).length ds.length + 1
  obtain ⟨h4, h5⟩ := h1 m (by omega) (by omega)
  have h6 := C70_program h4 h5 hd
  rw [h3] at h6
  cases h6
  obtain ⟨ds', hp', key⟩ := C94_work h4 hd hsz
  cases hp.symm.trans hp'
  exact ⟨out, defs, fun n hn hn' => (h1 n hn hn').2, h3, key hns hne⟩

/-! ## Both conditions are needed -/

theorem bind_cost {α β : Type} (x : A α) (f : α → A β) (s : Bytes) : (x s).1 ≤ ((x >>= f) s).1 := by
  rw [A.bind_def]
  rcases x s with ⟨c, ⟨a, r⟩ | e | p | _⟩ <;> simp

theorem work_member {env : Env} {x f : String} {t : Ty} {fs : List (String × Ty)}
    (hx : env x = some (.struct ((f, t) :: fs))) (n : Nat) (b : Bytes) :
    1 + work env n t b ≤ work env (n + 1) (.named x) b := by
  unfold work
  have h1 : (deTyW env n t b).1 ≤ (deDefA (deTyW env n) x (.struct ((f, t) :: fs)) b).1 := by
    simp only [deDefA, List.map_cons, visitEachA, List.length_cons, List.length_map]
    refine Nat.le_trans ?_ (bind_cost _ _ b)
    rw [next_bind]
    exact bind_cost _ _ b
  rw [deTyW, A.bind_def]
  have hs : A.step b = (1, .ok ((), b)) := rfl
  rw [hs]
  simp only [hx]
  exact Nat.add_le_add_left h1 1

/-- C94 without the condition on arrays: a list of empty arrays. The bytes of the list are its count, and the work is
more than the count. -/
theorem C94_empty_array : ∃ file defs ds, run 5 c!"typedef int z[0]; struct s { z l<>; };" {} = .printed file ∧
    file.defs = some defs ∧ file.Compiles ∧ parse c!"typedef int z[0]; struct s { z l<>; };" = .ok ds ∧
    NoSelfMembers ds ∧ ∀ count : UInt32,
      count.toNat < work (Xdr.program defs) 3 (.named "S") (Rfc.beBytes 4 count.toNat) := by
  have hx : ∃ file defs ds, run 5 c!"typedef int z[0]; struct s { z l<>; };" {} = .printed file ∧
      file.defs = some defs ∧ (∀ i ∈ file.types, i.inline = []) ∧ file.apart = true ∧
      parse c!"typedef int z[0]; struct s { z l<>; };" = .ok ds ∧
      ds = [.type (.declaration (.fixedArray (.int true) c!"z" (.constant (.decimal c!"0")))),
        .type (.struct c!"s" [.variableArray (.identifier c!"z") c!"l" none])] ∧
      Xdr.program defs "S" = some (.struct [("l", .vec (.array 0 .i32))]) := by
    set_option maxRecDepth 100000 in exact ⟨_, _, _, rfl, rfl, by decide +kernel, by decide +kernel, rfl, rfl, rfl⟩
  obtain ⟨file, defs, ds, h1, h2, h3, h4, h5, rfl, h6⟩ := hx
  refine ⟨file, defs, _, h1, h2, ⟨⟨defs, h2⟩, ?_, h4⟩, h5, ?_, fun count => ?_⟩
  · intro a h
    obtain ⟨y, ⟨i, hi, -, hb⟩, -⟩ := Relation.TransGen.head'_iff.1 h
    rw [h3 i hi] at hb
    cases hb
  · intro s ms hin d hd nm len
    simp only [List.mem_cons, reduceCtorEq, Definition.type.injEq, TypeDef.struct.injEq, List.not_mem_nil,
      or_false, false_or] at hin
    obtain ⟨rfl, rfl⟩ := hin
    rw [List.mem_singleton] at hd
    subst hd
    simp
  · have hr := read_count count []
    rw [List.append_nil] at hr
    have hw := deTyW_vec (env := Xdr.program defs) (n := 1) (t := .array 0 .i32) hr
      (visitVec_free (w := 1) (v := .seq []) (fun s => rfl) count.toNat [])
    have : 1 + work _ 2 _ _ ≤ work _ 3 _ _ := work_member h6 2 (Rfc.beBytes 4 count.toNat)
    have h7 : work (Xdr.program defs) 2 (.vec (.array 0 .i32)) (Rfc.beBytes 4 count.toNat) = 1 + count.toNat * 1 := by
      unfold work
      rw [hw]
    omega

/-- C94 without the condition on structures: the work is as much as the recursion depth allows, on no input at all. -/
theorem C94_self_member : ∃ file defs ds, run 5 loopText {} = .printed file ∧
    file.defs = some defs ∧ file.Compiles ∧ parse loopText = .ok ds ∧ NoEmptyArrays ds ∧
    ∀ m, m ≤ work (Xdr.program defs) m (.named "Loop") [] := by
  have hx : ∃ file defs ds, run 5 loopText {} = .printed file ∧ file.defs = some defs ∧
      (∀ i ∈ file.types, i.inline = []) ∧ file.apart = true ∧ parse loopText = .ok ds ∧
      ds = [.type (.struct c!"loop" [.variable (.identifier c!"loop") c!"again", .variable (.int true) c!"x"])] ∧
      Xdr.program defs "Loop" = some (.struct [("again", .named "Loop"), ("x", .i32)]) := by
    set_option maxRecDepth 100000 in exact ⟨_, _, _, rfl, rfl, by decide +kernel, by decide +kernel, rfl, rfl, rfl⟩
  obtain ⟨file, defs, ds, h1, h2, h3, h4, h5, rfl, h6⟩ := hx
  refine ⟨file, defs, _, h1, h2, ⟨⟨defs, h2⟩, ?_, h4⟩, h5, ?_, fun m => ?_⟩
  · intro a h
    obtain ⟨y, ⟨i, hi, -, hb⟩, -⟩ := Relation.TransGen.head'_iff.1 h
    rw [h3 i hi] at hb
    cases hb
  · intro d hin ts nm len hd
    have hm := declIn_mem (hin.imp id fun h => h.imp id fun h => h.imp id .inl)
    simp only [declarations, List.flatMap_cons, List.flatMap_nil, List.append_nil, List.mem_cons, List.not_mem_nil,
      or_false] at hm
    rcases hm with rfl | rfl <;> rcases hd with hd | hd <;> cases hd
  · induction m with
    | zero => exact Nat.zero_le _
    | succ m ih =>
      have := work_member h6 m []
      omega

/-! ## Example -/

theorem noEmptyArrays_catalogue : NoEmptyArrays catalogue := by
  intro d hin ts nm len hd hs
  have hm : d ∈ declarations catalogue := declIn_mem (hin.imp id fun h => h.imp id fun h => h.imp id .inl)
  rw [declarations_catalogue] at hm
  rcases hd with rfl | rfl
  · simp at hm
    obtain ⟨-, -, rfl⟩ := hm
    obtain ⟨c, h1, h2⟩ := hs
    cases h1
    exact absurd h2 (by decide)
  · simp at hm
    obtain ⟨-, rfl⟩ := hm
    obtain ⟨c, h1, h2⟩ := hs
    cases h1
    exact absurd h2 (by decide)

/-- The catalogue, with any flags. -/
example (flags : Flags) : ∃ out defs, (∀ n, 6 < n → output n catalogueText flags = some out) ∧
    rustDefs out = some defs ∧ ∀ ty, ∃ K, ∀ (m : Nat) (input : Bytes),
      work (Xdr.program defs) m (.named ty) input ≤ K * (input.length / 4 + 1) := by
  obtain ⟨out, defs, h1, h2, h3⟩ := C94_whole parse_catalogue (proper_catalogue flags) noSelfMembers_catalogue
    noEmptyArrays_catalogue
  refine ⟨out, defs, fun n hn => h1 n ?_ ?_, h2, h3⟩
  · exact Nat.lt_of_le_of_lt (by decide) hn
  · exact Nat.lt_of_le_of_lt (by decide) hn

end Xdr.Rpcgen
