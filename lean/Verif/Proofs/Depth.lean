import Verif.Proofs.NoPanic
/-! # Lemmas: how much input decoders consume, and how deep they recurse -/

namespace Xdr

/-- On success the decoder consumes at least `k` bytes. -/
def Eats {α : Type} (k : Nat) (d : De α) : Prop :=
  ∀ input v rest, d input = .ok (v, rest) → rest.length + k ≤ input.length

theorem Gen.eats {α : Type} {d : De α} (h : Gen d) : Eats 0 d := by
  intro input v rest hr
  obtain ⟨used, h1, _⟩ := h.local hr
  rw [h1, List.length_append]; omega

theorem Eats.bind {α β : Type} {j k : Nat} {m : De α} {f : α → De β} (hm : Eats j m)
    (hf : ∀ a, Eats k (f a)) : Eats (j + k) (m >>= f) := by
  intro input v rest hr
  obtain ⟨a, mid, h1, h2⟩ := M.bind_eq_ok.mp hr
  have := hm _ _ _ h1
  have := hf a _ _ _ h2
  omega

theorem Eats.mono {α : Type} {j k : Nat} {d : De α} (h : Eats k d) (hj : j ≤ k) : Eats j d := by
  intro input v rest hr
  have := h _ _ _ hr
  omega

theorem Eats.first {α β : Type} {k : Nat} {m : De α} {f : α → De β} (hm : Eats k m)
    (hf : ∀ a, Gen (f a)) : Eats k (m >>= f) := Eats.bind hm fun a => (hf a).eats

theorem Eats.second {α β : Type} {k : Nat} {m : De α} {f : α → De β} (hm : Gen m)
    (hf : ∀ a, Eats k (f a)) : Eats k (m >>= f) := by
  have := Eats.bind hm.eats hf
  rwa [Nat.zero_add] at this

theorem eats_u32 : Eats 4 read_u32 := by
  intro input v rest h
  obtain ⟨a, b, c, d, h1, _⟩ := read_u32_ok h
  subst h1
  simp

theorem eats_u64 : Eats 4 read_u64 := by
  intro input v rest h
  by_cases h8 : input.length < 8
  · rw [read_u64_lt h8] at h; simp at h
  · obtain ⟨a, b, c, d, e, f, g, i, r, rfl⟩ := exists_dword (Nat.not_lt.mp h8)
    rw [read_u64_cons] at h
    simp only [Res.ok.injEq, Prod.mk.injEq] at h
    rw [← h.2]
    simp

theorem eats_i32 : Eats 4 read_i32 := by
  rw [read_i32_eq]; exact .first eats_u32 fun _ => .pure _

theorem eats_i64 : Eats 4 read_i64 := by
  rw [read_i64_eq]; exact .first eats_u64 fun _ => .pure _

theorem eats_char : Eats 4 read_char := by
  unfold read_char
  refine .first eats_u32 fun c => ?_
  split
  · exact .pure _
  · exact .fail _ (by simp) (by simp)

theorem eats_string : Eats 4 read_string := by
  intro input v rest h
  by_cases h4 : input.length < 4
  · rw [read_string_lt h4] at h; simp at h
  · obtain ⟨a, b, c, d, r, rfl⟩ := exists_word (Nat.not_lt.mp h4)
    rw [read_string_run a b c d r _ rfl] at h
    generalize (ofBe32 a b c d).toNat = n at h
    split at h
    · simp at h
    · split at h
      · simp at h
      · split at h
        · simp at h
        · simp only [Res.ok.injEq, Prod.mk.injEq] at h
          rw [← h.2]
          simp

theorem eats_bytes : Eats 4 read_bytes := by
  intro input v rest h
  by_cases h4 : input.length < 4
  · rw [read_bytes_lt h4] at h; simp at h
  · obtain ⟨a, b, c, d, r, rfl⟩ := exists_word (Nat.not_lt.mp h4)
    rw [read_bytes_run a b c d r _ rfl] at h
    generalize (ofBe32 a b c d).toNat = n at h
    split at h
    · simp at h
    · split at h
      · simp at h
      · simp only [Res.ok.injEq, Prod.mk.injEq] at h
        rw [← h.2]
        simp

theorem Gen.readAll {ds : List (De Val)} (h : ∀ d ∈ ds, Gen d) : Gen (readAll ds) := by
  induction ds with
  | nil => exact .pure _
  | cons d ds ih =>
    exact .bind (h d (by simp)) fun _ => .bind (ih fun x hx => h x (by simp [hx])) fun _ => .pure _

theorem Eats.readAll {k : Nat} {ds : List (De Val)} (h : ∀ d ∈ ds, Eats k d) :
    Eats (k * ds.length) (readAll ds) := by
  induction ds with
  | nil => exact (Gen.pure _).eats
  | cons d ds ih =>
    have h2 := ih fun x hx => h x (by simp [hx])
    have := Eats.bind (h d (by simp)) fun v => Eats.first h2 fun vs => Gen.pure (v :: vs)
    rw [List.length_cons, Nat.mul_add, Nat.mul_one, Nat.add_comm]
    exact this

theorem eats_readAll_some {k : Nat} {ds : List (De Val)} (hg : ∀ d ∈ ds, Gen d) {d : De Val}
    (hd : d ∈ ds) (h : Eats k d) : Eats k (readAll ds) := by
  induction ds with
  | nil => simp at hd
  | cons x xs ih =>
    have hgx : Gen (readAll xs) := .readAll fun y hy => hg y (by simp [hy])
    rcases List.mem_cons.mp hd with rfl | hd
    · exact .first h fun _ => .bind hgx fun _ => .pure _
    · exact .second (hg x (by simp)) fun _ =>
        .first (ih (fun y hy => hg y (by simp [hy])) hd) fun _ => .pure _

theorem sizedSome_iff {env : Env} {ts : List Ty} : SizedSome env ts ↔ ∃ t ∈ ts, Sized env t := by
  constructor
  · intro h
    induction ts with
    | nil => cases h
    | cons t ts ih =>
      cases h with
      | head h => exact ⟨t, by simp, h⟩
      | tail h =>
        obtain ⟨u, h1, h2⟩ := ih h
        exact ⟨u, by simp [h1], h2⟩
  · rintro ⟨t, h1, h2⟩
    induction ts with
    | nil => simp at h1
    | cons u us ih =>
      rcases List.mem_cons.mp h1 with rfl | h
      · exact .head h2
      · exact .tail (ih h)

theorem gens (env : Env) (n : Nat) (ts : List Ty) : ∀ d ∈ ts.map (deTy env n), Gen d := by
  intro d hd
  obtain ⟨t, _, rfl⟩ := List.mem_map.mp hd
  exact (built_deTy env n t).gen

mutual
theorem sized_eats {env : Env} {t : Ty} : Sized env t → ∀ n, Eats 4 (deTy env n t) := by
  intro h n
  cases n with
  | zero => intro input v rest hr; simp [deTy] at hr
  | succ n =>
    match h with
    | .bool => exact .first eats_u32 fun _ => .pure _
    | .i8 => exact .first eats_i32 fun _ => .pure _
    | .i16 => exact .first eats_i32 fun _ => .pure _
    | .i32 => exact .first eats_i32 fun _ => .pure _
    | .i64 => exact .first eats_i64 fun _ => .pure _
    | .u8 => exact .first eats_u32 fun _ => .pure _
    | .u16 => exact .first eats_u32 fun _ => .pure _
    | .u32 => exact .first eats_u32 fun _ => .pure _
    | .u64 => exact .first eats_u64 fun _ => .pure _
    | .f32 => exact .first eats_u32 fun _ => .pure _
    | .f64 => exact .first eats_u64 fun _ => .pure _
    | .char => exact .first eats_char fun _ => .pure _
    | .string => exact .first eats_string fun _ => .pure _
    | .bytes => exact .first eats_bytes fun _ => .pure _
    | .option t =>
      simp only [deTy, deserialize_option]
      refine .first eats_u32 fun v => ?_
      split
      · exact .pure _
      · exact .bind (built_deTy env n t).gen fun _ => .pure _
    | .vec t =>
      refine .first (.first eats_u32 fun v => ?_) fun _ => .pure _
      exact (built_visitVec (built_deTy env n t) _ _).gen
    | .map k v =>
      refine .first (.first eats_u32 fun c => ?_) fun _ => .pure _
      exact (built_visitMap (built_deTy env n k) (built_deTy env n v) _ _ _).gen
    | .array (n := len) (t := t) h =>
      simp only [deTy, deserialize_tuple]
      rw [visitEach_eq _ _ _ _ (by simp)]
      refine .first ?_ fun _ => .pure _
      refine (Eats.readAll (k := 4) fun d hd => ?_).mono ?_
      · rw [List.eq_of_mem_replicate hd]; exact sized_eats h n
      · rw [List.length_replicate]; omega
    | .tuple (ts := ts) h =>
      rw [deTy_tuple]
      exact .first (sizedSome_eats h n) fun _ => .pure _
    | .opaqueFixed (n := len) =>
      refine .first ?_ fun _ => .pure _
      intro input v rest hr
      rw [fixed_deserialize_run] at hr
      have := padLen_add (len + 1)
      split at hr
      · simp at hr
      · simp only [Res.ok.injEq, Prod.mk.injEq] at hr
        rw [← hr.2, List.length_drop]; omega
    | .opaqueVar =>
      refine .first ?_ fun _ => .pure _
      exact .first eats_u32 fun c => (built_enumerate_u8 _).gen
    | .signed32 name impl =>
      simp only [deTy, signed32_deserialize]
      refine .first (.first eats_i32 fun _ => .pure _) fun v => ?_
      split
      · exact .fail _ (by simp) (by simp)
      · rename_i h; exact (Built.ofRes _ fun e he => h e he).gen
    | .newtypeStruct he h =>
      simp only [deTy, he, deDef]
      exact .first (sized_eats h n) fun _ => .pure _
    | .tupleStruct he h =>
      simp only [deTy, he, deDef, deserialize_tuple_struct]
      rw [visitEach_eq _ _ _ _ (by simp)]
      exact .first (sizedSome_eats h n) fun _ => .pure _
    | .struct (fs := fs) he h =>
      simp only [deTy, he, deDef, deserialize_struct]
      rw [visitEach_eq _ _ _ _ (by simp)]
      have := sizedSome_eats h n
      rw [List.map_map] at this
      exact .first this fun _ => .pure _
    | .enum (name := name) (vars := vars) he =>
      simp only [deTy, he, deDef, deserialize_enum]
      have : Eats 4 (Enum_variant_seed (variantIndex vars.length)) := by
        refine .first eats_i32 fun i => ?_
        split
        · exact .fail _ (by simp) (by simp)
        · unfold variantIndex
          split
          · exact .pure _
          · exact .fail _ (by simp) (by simp)
      refine .first this fun i => ?_
      split
      · exact .panic _
      · exact .pure _
      · exact .bind (built_deTy env n _).gen fun _ => .pure _
      · rename_i ts _
        simp only [Enum_tuple_variant, deserialize_tuple]
        rw [visitEach_eq _ _ _ _ (by simp)]
        exact .bind (.readAll (gens env n ts)) fun _ => .pure _
      · rename_i fs _
        simp only [Enum_struct_variant, deserialize_tuple]
        rw [visitEach_eq _ _ _ _ (by simp)]
        have := gens env n (fs.map (·.2))
        rw [List.map_map] at this
        exact .bind (.readAll this) fun _ => .pure _
    | .indexer (vars := vars) (impl := impl) he =>
      simp only [deTy, he, deDef, deserialize_tuple, visitIndexer]
      have e : ∀ d : De Int32, Seq.next_element { count := 10 } d =
          (d >>= fun v => Pure.pure (some v, { count := 9 })) := fun _ => rfl
      rw [e, M.bind_assoc']
      refine .first (.first eats_i32 fun _ => .pure _) fun i => ?_
      rw [M.pure_bind']
      dsimp only
      split
      · exact .fail _ (by simp) (by simp)
      · exact .panic _
      · exact .depth
      · split
        · exact .panic _
        · exact .pure _
        · exact .bind (built_visitUnwrap _ _ fun d hd => by
            obtain ⟨t, _, rfl⟩ := List.mem_map.mp hd
            exact built_deTy env n t).gen fun _ => .pure _
    | .union (disc := disc) he h =>
      simp only [deTy, he, deDef, deserialize_tuple, visitUnion]
      have e : ∀ d : De Val, Seq.next_element { count := 10 } d =
          (d >>= fun v => Pure.pure (some v, { count := 9 })) := fun _ => rfl
      rw [e, M.bind_assoc']
      refine .first (sized_eats h n) fun i => ?_
      rw [M.pure_bind']
      dsimp only
      split
      · exact .fail _ (by simp) (by simp)
      · exact .panic _
      · exact .depth
      · split
        · exact .panic _
        · exact .pure _
        · exact .pure _
        · exact .bind (built_visitUnwrap _ _ fun d hd => by
            obtain ⟨t, _, rfl⟩ := List.mem_map.mp hd
            exact built_deTy env n t).gen fun _ => .pure _

theorem sizedSome_eats {env : Env} {ts : List Ty} :
    SizedSome env ts → ∀ n, Eats 4 (readAll (ts.map (deTy env n))) := by
  intro h n
  match h with
  | .head (t := t) (ts := ts) h =>
    exact .first (sized_eats h n) fun _ => .bind (.readAll (gens env n ts)) fun _ => .pure _
  | .tail (t := t) (ts := ts) h =>
    exact .second (built_deTy env n t).gen fun _ => .first (sizedSome_eats h n) fun _ => .pure _
end

end Xdr
