import Verif.Spec.NotRecursive
import Verif.Props.Resources
/-!
# Decoding types that do not contain themselves

One step of `deTy` returns when the decoders of the parts do, so the depth needed is bounded by the rank of a type.
-/

namespace Xdr

theorem step_fine {env : Env} (hr : ∀ x d, env x = some d → d.Returns) {n : Nat} {t : Ty} (hret : t.Returns)
    (hp : ∀ w ∈ t.parts env, ∀ len, Fine (deTy env n w) len) (len : Nat) : Fine (deTy env (n + 1) t) len := by
  have hg := fun t => (built_deTy env n t).gen
  cases t with
  | bool => exact .bind0 (fine_u32 _) .u32 fun _ => .pure _ _
  | i8 => exact .bind0 (fine_i32 _) .i32 fun _ => .pure _ _
  | i16 => exact .bind0 (fine_i32 _) .i32 fun _ => .pure _ _
  | i32 => exact .bind0 (fine_i32 _) .i32 fun _ => .pure _ _
  | i64 => exact .bind0 (fine_i64 _) .i64 fun _ => .pure _ _
  | u8 => exact .bind0 (fine_u32 _) .u32 fun _ => .pure _ _
  | u16 => exact .bind0 (fine_u32 _) .u32 fun _ => .pure _ _
  | u32 => exact .bind0 (fine_u32 _) .u32 fun _ => .pure _ _
  | u64 => exact .bind0 (fine_u64 _) .u64 fun _ => .pure _ _
  | f32 => exact .bind0 (fine_u32 _) .u32 fun _ => .pure _ _
  | f64 => exact .bind0 (fine_u64 _) .u64 fun _ => .pure _ _
  | char => exact .bind0 (fine_char _) .char fun _ => .pure _ _
  | string => exact .bind0 (fine_string _) .string fun _ => .pure _ _
  | bytes => exact .bind0 (fine_bytes _) .bytes fun _ => .pure _ _
  | unit => exact .pure _ _
  | opaqueFixed m => exact .bind0 (fine_fixed _ _) (built_fixed m).gen fun _ => .pure _ _
  | opaqueVar => exact .bind0 (fine_variable _) built_variable.gen fun _ => .pure _ _
  | signed32 _ impl =>
    simp only [Ty.Returns] at hret
    simp only [deTy, signed32_deserialize]
    refine .bind0 (.bind0 (fine_i32 _) .i32 fun _ => .pure _ _) (.bind .i32 fun _ => .pure _)
      fun v => ?_
    split
    · exact .of (by simp) _
    · refine .of (fun input => ?_) _
      have := hret v
      unfold M.ofRes
      cases e : impl.try_from v <;> simp_all [M.pure]
  | option t =>
    simp only [deTy, deserialize_option]
    refine .bind (fine_u32 _) eats_u32 fun v l hl => ?_
    split
    · exact .pure _ _
    · exact .bind0 (hp t (by simp [Ty.parts]) l) (hg t) fun _ => .pure _ _
  | vec t =>
    rw [deTy_vec]
    refine .bind (fine_u32 _) eats_u32 fun c l hl => ?_
    have h1 : ∀ d ∈ List.replicate c.toNat (deTy env n t), Gen d := fun d hd => by
      rw [List.eq_of_mem_replicate hd]; exact hg t
    refine .bind0 (.readAll h1 fun d hd => ?_) (.readAll h1) fun _ => .pure _ _
    rw [List.eq_of_mem_replicate hd]
    exact hp t (by simp [Ty.parts]) l
  | map k v =>
    rw [deTy_map]
    refine .bind (fine_u32 _) eats_u32 fun c l hl => ?_
    exact .bind0 (.readPairs (hg k) (hg v) (hp k (by simp [Ty.parts]) l)
      (hp v (by simp [Ty.parts]) l) _) (.readPairs (hg k) (hg v) _) fun _ => .pure _ _
  | array m t =>
    rw [deTy_array]
    have h1 : ∀ d ∈ List.replicate m (deTy env n t), Gen d := fun d hd => by
      rw [List.eq_of_mem_replicate hd]; exact hg t
    refine .bind0 (.readAll h1 fun d hd => ?_) (.readAll h1) fun _ => .pure _ _
    rw [List.eq_of_mem_replicate hd]
    exact hp t (by simp [Ty.parts]) len
  | tuple ts =>
    rw [deTy_tuple]
    refine .bind0 (.readAll (gens env n ts) fun d hd => ?_) (.readAll (gens env n ts)) fun _ =>
      .pure _ _
    obtain ⟨t, ht, rfl⟩ := List.mem_map.mp hd
    exact hp t ht len
  | named x =>
    unfold deTy
    dsimp only
    split
    · exact .of (by simp) _
    · rename_i d hd
      have huser := (hr x d hd).2
      have hf : ∀ t ∈ d.types, ∀ len, Fine (deTy env n t) len := fun t ht => hp t (by simpa only [Ty.parts, hd] using ht)
      cases d with
      | unitStruct => exact .pure _ _
      | newtypeStruct t =>
        exact .bind0 (hf t (by simp [Def.types]) _) (hg t) fun _ => .pure _ _
      | tupleStruct ts =>
        simp only [deDef, deserialize_tuple_struct]
        rw [visitEach_eq _ _ _ _ (by simp)]
        refine .bind0 (.readAll (gens env n ts) fun e he => ?_) (.readAll (gens env n ts)) fun _ =>
          .pure _ _
        obtain ⟨t, ht, rfl⟩ := List.mem_map.mp he
        exact hf t (by simpa [Def.types] using ht) _
      | struct fs =>
        simp only [deDef, deserialize_struct]
        rw [visitEach_eq _ _ _ _ (by simp)]
        have hgs := gens env n (fs.map (·.2))
        rw [List.map_map] at hgs
        refine .bind0 (.readAll hgs fun e he => ?_) (.readAll hgs) fun _ => .pure _ _
        obtain ⟨f, hfm, rfl⟩ := List.mem_map.mp he
        have ht : f.2 ∈ fs.map (·.2) := List.mem_map_of_mem hfm
        exact hf f.2 (by simpa [Def.types] using ht) _
      | enum vars =>
        simp only [deDef, deserialize_enum]
        have he : Eats 4 (Enum_variant_seed (variantIndex vars.length)) := by
          refine .first eats_i32 fun i => ?_
          split
          · exact .fail _ (by simp) (by simp)
          · unfold variantIndex
            split
            · exact .pure _
            · exact .fail _ (by simp) (by simp)
        have hfv : Fine (Enum_variant_seed (variantIndex vars.length)) len := by
          refine .bind0 (fine_i32 _) .i32 fun i => ?_
          split
          · exact .of (by simp) _
          · unfold variantIndex
            split
            · exact .pure _ _
            · exact .of (by simp) _
        refine .bind hfv he fun i l hl => ?_
        have hm : ∀ v, vars[i]? = some v → ∀ t ∈ v.2.types, Fine (deTy env n t) l := by
          intro v hv t ht
          have : t ∈ (Def.enum vars).types := by
            simp only [Def.types, List.mem_flatMap]
            exact ⟨v, List.mem_of_getElem? hv, ht⟩
          exact hf t this l
        split
        · exact .of (by simp) _
        · exact .pure _ _
        · rename_i t hv
          exact .bind0 (hm _ hv t (by simp [Shape.types])) (hg _) fun _ => .pure _ _
        · rename_i ts hv
          simp only [Enum_tuple_variant, deserialize_tuple]
          rw [visitEach_eq _ _ _ _ (by simp)]
          refine .bind0 (.readAll (gens env n ts) fun e he => ?_) (.readAll (gens env n ts)) fun _ =>
            .pure _ _
          obtain ⟨t, ht, rfl⟩ := List.mem_map.mp he
          exact hm _ hv t (by simpa [Shape.types] using ht)
        · rename_i fs hv
          simp only [Enum_struct_variant, deserialize_tuple]
          rw [visitEach_eq _ _ _ _ (by simp)]
          have hgs := gens env n (fs.map (·.2))
          rw [List.map_map] at hgs
          refine .bind0 (.readAll hgs fun e he => ?_) (.readAll hgs) fun _ => .pure _ _
          obtain ⟨f, hfm, rfl⟩ := List.mem_map.mp he
          have ht : f.2 ∈ fs.map (·.2) := List.mem_map_of_mem hfm
          exact hm _ hv f.2 (by simpa [Shape.types] using ht)
      | indexer vars impl =>
        simp only [] at huser
        simp only [deDef, deserialize_tuple, visitIndexer]
        have e : ∀ d : De Int32, Seq.next_element { count := 10 } d =
            (d >>= fun v => Pure.pure (some v, { count := 9 })) := fun _ => rfl
        rw [e, M.bind_assoc']
        refine .bind (k := 4) (.bind0 (fine_i32 _) .i32 fun _ => .pure _ _)
          (.first eats_i32 fun _ => .pure _) fun i l hl => ?_
        rw [M.pure_bind']
        dsimp only
        split
        · exact .of (by simp) _
        · exact .of (by simp) _
        · rename_i h; exact absurd h (huser i)
        · rename_i vn _
          split
          · exact .of (by simp) _
          · exact .pure _ _
          · rename_i j ts hv
            refine .bind0 (.visitUnwrap _ _ (gens env n ts) fun e he => ?_)
              (.visitUnwrap _ _ (gens env n ts)) fun _ => .pure _ _
            obtain ⟨t, ht, rfl⟩ := List.mem_map.mp he
            have : t ∈ (Def.indexer vars impl).types := by
              simp only [Def.types, List.mem_flatMap]
              exact ⟨_, findVariant_mem hv, ht⟩
            exact hf t this l
      | union disc vars impl =>
        simp only [] at huser
        simp only [deDef, deserialize_tuple, visitUnion]
        have e : ∀ d : De Val, Seq.next_element { count := 10 } d =
            (d >>= fun v => Pure.pure (some v, { count := 9 })) := fun _ => rfl
        rw [e, M.bind_assoc']
        refine .bind (k := 0) (hf disc (by simp [Def.types]) _)
          (hg disc).eats fun i l hl => ?_
        rw [M.pure_bind']
        dsimp only
        split
        · exact .of (by simp) _
        · exact .of (by simp) _
        · rename_i h; exact absurd h (huser i)
        · split
          · exact .of (by simp) _
          · exact .pure _ _
          · exact .pure _ _
          · rename_i j a ts hv
            refine .bind0 (.visitUnwrap _ _ (gens env n ts) fun e he => ?_)
              (.visitUnwrap _ _ (gens env n ts)) fun _ => .pure _ _
            obtain ⟨t, ht, rfl⟩ := List.mem_map.mp he
            have : t ∈ (Def.union disc vars impl).types := by
              simp only [Def.types, List.mem_cons, List.mem_flatMap]
              exact .inr ⟨_, findVariant_mem hv, by simp [ht]⟩
            exact hf t this l

/-- `Reaches` in the text of a type. -/
theorem reaches_part {t w : Ty} {env : Env} (hn : ∀ x, t ≠ .named x) (hw : w ∈ t.parts env) {y : String}
    (h : Reaches (fun _ => none) w (.named y)) : Reaches (fun _ => none) t (.named y) := by
  refine Relation.ReflTransGen.head ?_ h
  cases t with
  | named x => exact absurd rfl (hn x)
  | _ => exact hw

theorem part_height {t w : Ty} {env : Env} (hn : ∀ x, t ≠ .named x) (hw : w ∈ t.parts env) : w.height + 1 ≤ t.height := by
  cases t with
  | named x => exact absurd rfl (hn x)
  | tuple ts =>
    simp only [Ty.height]
    have := height_le_heights (t := w) (ts := ts) hw
    omega
  | map k v =>
    simp only [Ty.parts, List.mem_cons, List.not_mem_nil, or_false] at hw
    simp only [Ty.height]
    rcases hw with rfl | rfl <;> omega
  | option t =>
    simp only [Ty.parts, List.mem_singleton] at hw
    subst hw
    simp only [Ty.height, Nat.le_refl]
  | vec t =>
    simp only [Ty.parts, List.mem_singleton] at hw
    subst hw
    simp only [Ty.height, Nat.le_refl]
  | array m t =>
    simp only [Ty.parts, List.mem_singleton] at hw
    subst hw
    simp only [Ty.height, Nat.le_refl]
  | _ => cases hw

theorem returns_part {t w : Ty} {env : Env} (hr : ∀ x d, env x = some d → d.Returns) (ht : t.Returns)
    (hw : w ∈ t.parts env) : w.Returns := by
  cases t with
  | named x =>
    simp only [Ty.parts] at hw
    split at hw
    · cases hw
    · next d hd => exact (returnsAll_iff _).1 (hr x d hd).1 w hw
  | tuple ts =>
    simp only [Ty.Returns, returnsAll_iff] at ht
    exact ht w hw
  | map k v =>
    simp only [Ty.parts, List.mem_cons, List.not_mem_nil, or_false] at hw
    simp only [Ty.Returns] at ht
    rcases hw with rfl | rfl
    · exact ht.1
    · exact ht.2
  | option t =>
    simp only [Ty.parts, List.mem_singleton] at hw
    subst hw
    simpa only [Ty.Returns] using ht
  | vec t =>
    simp only [Ty.parts, List.mem_singleton] at hw
    subst hw
    simpa only [Ty.Returns] using ht
  | array m t =>
    simp only [Ty.parts, List.mem_singleton] at hw
    subst hw
    simpa only [Ty.Returns] using ht
  | _ => cases hw

open Classical in
/-- The number of defined names mentioned from `x` on. -/
noncomputable def mentionRank (defs : List (String × Def)) (x : String) : Nat :=
  (defs.map (·.1)).countP fun z => decide (Relation.TransGen (Mentions (program defs)) x z)

theorem mentionRank_lt {defs : List (String × Def)} (h : NotRecursive (program defs)) {x y : String}
    (hm : Mentions (program defs) x y) (hy : (program defs y).isSome) : mentionRank defs y < mentionRank defs x := by
  refine countP_lt (a := y) ?_ (program_isSome hy) ?_ ?_
  · intro z hz
    simp only [decide_eq_true_eq] at hz ⊢
    exact (Relation.TransGen.single hm).trans hz
  · simp only [decide_eq_true_eq]
    exact .single hm
  · simp only [decide_eq_true_eq]
    exact h y

theorem mentionRank_le (defs : List (String × Def)) (x : String) : mentionRank defs x ≤ defs.length := by
  unfold mentionRank
  refine Nat.le_trans List.countP_le_length ?_
  rw [List.length_map]; exact Nat.le_refl _

theorem bounded_deTy {defs : List (String × Def)} (h : NotRecursive (program defs))
    (hr : ∀ x d, program defs x = some d → d.Returns) {H : Nat}
    (hH : ∀ x d, program defs x = some d → ∀ t ∈ d.types, t.height ≤ H) :
    ∀ (n : Nat) (t : Ty) (r : Nat), t.Returns →
      (∀ y, Reaches (fun _ => none) t (.named y) → (program defs y).isSome → mentionRank defs y < r) →
      (H + 1) * r + t.height ≤ n → ∀ len, Fine (deTy (program defs) n t) len := by
  intro n
  induction n with
  | zero =>
    intro t r _ _ hn
    have := height_pos t
    omega
  | succ n ih =>
    intro t r hret hrank hn len
    refine step_fine hr hret (fun w hw => ?_) len
    have hrw := returns_part hr hret hw
    by_cases hx : ∃ x, t = .named x
    · obtain ⟨x, rfl⟩ := hx
      simp only [Ty.parts] at hw
      split at hw
      · cases hw
      · next d hd =>
        have hx := hrank x .refl (by rw [hd]; rfl)
        refine ih w (mentionRank defs x) hrw (fun y hy hs => mentionRank_lt h ⟨d, hd, w, hw, hy⟩ hs) ?_
        have h1 := hH x d hd w hw
        have h2 : (H + 1) * (mentionRank defs x + 1) ≤ (H + 1) * r := Nat.mul_le_mul_left _ hx
        rw [Nat.mul_add, Nat.mul_one] at h2
        have h3 : (Ty.named x).height = 1 := by simp only [Ty.height]
        omega
    · have hn' : ∀ x, t ≠ .named x := fun x hx' => hx ⟨x, hx'⟩
      refine ih w r hrw (fun y hy hs => hrank y (reaches_part hn' hw hy) hs) ?_
      have := part_height hn' hw
      omega

end Xdr
