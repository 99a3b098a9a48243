import Verif.Rpcgen.Main
import Verif.RpcgenProofs.Gen
/-!
# Property C54: command line flags

`Flags.config` is `main.rs` 29-42.
-/

namespace Xdr.Rpcgen

/-- C54. Whatever flags are given: never both enum encodings, never both union encodings, and typedefs
are always expanded. -/
theorem C54_exclusive (f : Flags) :
    ¬ (f.config.enum_impl_indexer = true ∧ f.config.enum_impl_std_trait = true) ∧
    ¬ (f.config.union_impl_indexer = true ∧ f.config.union_impl_union = true) ∧
    f.config.remove_typedef = true := by
  rcases f with ⟨_ | _, _ | _, _ | _, _ | _⟩ <;> decide

/-- C54. Each flag has its effect: `--use-std-trait` and `--use-union` always win; `--use-indexer`
selects the indexer for what is left over, `--use-extra-trait` for unions only; without a flag, indices are
complemented. -/
theorem C54_effects (f : Flags) :
    (f.config.enum_impl_std_trait = true ↔ f.use_std_trait = true) ∧
    (f.config.union_impl_union = true ↔ f.use_union = true) ∧
    (f.config.enum_impl_indexer = true ↔ f.use_indexer = true ∧ f.use_std_trait = false) ∧
    (f.config.union_impl_indexer = true ↔
      (f.use_indexer = true ∨ f.use_extra_trait = true) ∧ f.use_union = false) ∧
    (f.config.enum_complement_index = true ↔ f.use_std_trait = false ∧ f.use_indexer = false) ∧
    (f.config.union_complement_index = true ↔
      f.use_union = false ∧ f.use_indexer = false ∧ f.use_extra_trait = false) := by
  rcases f with ⟨_ | _, _ | _, _ | _, _ | _⟩ <;> decide

example : ({ use_indexer := true, use_union := true } : Flags).config =
    { remove_typedef := true, enum_impl_indexer := true, union_impl_union := true } := rfl

/-- C54. The derives follow: a run prints enums with `derive(XdrIndexer)` and `impl XdrIndexer` exactly
when the enum indexer is selected, and with `AsRef`/`TryFrom` exactly with `--use-std-trait`; unions
likewise. -/
theorem C54_items (n : Nat) (source : Str) (f : Flags) (file : RustFile)
    (h : run n source f = .printed file) :
    (∀ e, .enum e ∈ file.types →
      (e.deriveIndexer = true ↔ f.use_indexer = true ∧ f.use_std_trait = false) ∧
      (e.indexer.isSome = true ↔ f.use_indexer = true ∧ f.use_std_trait = false) ∧
      (e.asRef.isSome = true ↔ f.use_std_trait = true) ∧
      (e.tryFrom.isSome = true ↔ f.use_std_trait = true)) ∧
    (∀ u, .union u ∈ file.types →
      (u.derive = .union ↔ f.use_union = true) ∧ (u.union.isSome = true ↔ f.use_union = true) ∧
      (u.derive = .indexer ↔ (f.use_indexer = true ∨ f.use_extra_trait = true) ∧ f.use_union = false) ∧
      (u.indexer.isSome = true ↔
        (f.use_indexer = true ∨ f.use_extra_trait = true) ∧ f.use_union = false)) ∧
    (∀ name ty, .alias name ty ∉ file.types) := by
  unfold run at h
  split at h
  · next decls _ =>
    split at h
    · next file' hg =>
      cases h
      obtain ⟨-, ht, -⟩ := gen_code_ok.1 hg
      have heff := C54_effects f
      have hex := C54_exclusive f
      have hcfg : (setup_context decls f.config).config = f.config := rfl
      refine ⟨fun e he => ?_, fun u hu => ?_, fun name ty ha => ?_⟩
      · obtain ⟨name, d, l, -, hd, hm⟩ := types_token_mem ht he
        have hi := typeToken_item hd hm
        cases d with
        | enum _ as =>
          obtain ⟨_, _, _, _, _, _, h1, _, h2, h3, h4⟩ := convert_enum_ok hi
          rw [hcfg] at h1 h2 h3 h4
          have s1 : e.indexer.isSome = f.config.enum_impl_indexer := by
            rw [h4]; cases f.config.enum_impl_indexer <;> rfl
          have s2 : e.asRef.isSome = f.config.enum_impl_std_trait := by
            rw [h2]; cases f.config.enum_impl_std_trait <;> rfl
          have s3 : e.tryFrom.isSome = f.config.enum_impl_std_trait := by
            rw [h3]; cases f.config.enum_impl_std_trait <;> rfl
          rw [h1, s1, s2, s3]
          exact ⟨heff.2.2.1, heff.2.2.1, heff.1, heff.1⟩
        | declaration _ => exact hi.elim
        | struct _ _ => exact hi.elim
        | union _ _ => exact hi.elim
      · obtain ⟨name, d, l, -, hd, hm⟩ := types_token_mem ht hu
        have hi := typeToken_item hd hm
        cases d with
        | union _ as =>
          obtain ⟨_, _, _, _, _, _, _, h1, _, h2, h3⟩ := convert_union_ok hi
          rw [hcfg] at h1 h2 h3
          have s1 : u.indexer.isSome = f.config.union_impl_indexer := by
            rw [h2]; cases f.config.union_impl_indexer <;> rfl
          have s2 : u.union.isSome = f.config.union_impl_union := by
            rw [h3]; cases f.config.union_impl_union <;> rfl
          have s3 : u.derive = .union ↔ f.config.union_impl_union = true := by
            rw [h1]
            cases hA : f.config.union_impl_indexer <;> cases hB : f.config.union_impl_union <;> simp_all
          have s4 : u.derive = .indexer ↔ f.config.union_impl_indexer = true := by
            rw [h1]
            cases hA : f.config.union_impl_indexer <;> cases hB : f.config.union_impl_union <;> simp_all
          rw [s1, s2, s3, s4]
          exact ⟨heff.2.1, heff.2.1, heff.2.2.2.1, heff.2.2.2.1⟩
        | declaration _ => exact hi.elim
        | struct _ _ => exact hi.elim
        | enum _ _ => exact hi.elim
      · obtain ⟨name, d, l, -, hd, hm⟩ := types_token_mem ht ha
        have hi := typeToken_item hd hm
        cases d with
        | declaration _ =>
          have : f.config.remove_typedef = false := hi
          rw [hex.2.2] at this
          cases this
        | union _ _ => exact hi.elim
        | struct _ _ => exact hi.elim
        | enum _ _ => exact hi.elim
    · cases h
    · cases h
    · cases h
  · cases h
  · cases h
  · cases h

set_option maxRecDepth 100000 in
example : ∃ file, run 9 c!"typedef int t; enum e { A = 2 }; union u switch (e x) { case A: t y; };"
    { use_indexer := true, use_union := true } = .printed file ∧ file.types.length = 2 := ⟨_, rfl, rfl⟩

end Xdr.Rpcgen
