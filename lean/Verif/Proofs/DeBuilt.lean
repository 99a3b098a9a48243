import Verif.Proofs.Gen
/-! # The `Deserialize` impls of the modelled types are in the class `Built` -/

namespace Xdr

theorem Built.ofRes {α : Type} (r : Res α) (h : ∀ e, r ≠ .err e) : Built (M.ofRes r : De α) := by
  cases r with
  | ok a => exact .pure a
  | err e => exact absurd rfl (h e)
  | panic p => exact .panic p
  | depth => exact .depth

theorem Built.map' {α β : Type} {d : De α} (h : Built d) (f : α → β) :
    Built (d >>= fun a => Pure.pure (f a)) := .bind h fun a => .pure (f a)

theorem built_visitEach (exp : String) : ∀ (ds : List (De Val)) (i : Nat) (s : Seq),
    (∀ d ∈ ds, Built d) → Built (visitEach exp ds i s)
  | [], _, _, _ => .pure _
  | d :: ds, i, s, h => by
    unfold visitEach
    refine .bind (.next_element (h d (by simp))) fun p => ?_
    obtain ⟨o, s'⟩ := p
    cases o with
    | none => exact .custom _
    | some v => exact .bind (built_visitEach exp ds _ _ fun d hd => h d (by simp [hd])) fun vs => .pure _

theorem built_visitUnwrap : ∀ (ds : List (De Val)) (s : Seq),
    (∀ d ∈ ds, Built d) → Built (visitUnwrap ds s)
  | [], _, _ => .pure _
  | d :: ds, s, h => by
    unfold visitUnwrap
    refine .bind (.next_element (h d (by simp))) fun p => ?_
    obtain ⟨o, s'⟩ := p
    cases o with
    | none => exact .panic _
    | some v => exact .bind (built_visitUnwrap ds _ fun d hd => h d (by simp [hd])) fun vs => .pure _

theorem built_visitVec {d : De Val} (h : Built d) : ∀ (n : Nat) (s : Seq), Built (visitVec d n s)
  | 0, _ => .depth
  | n + 1, s => by
    unfold visitVec
    refine .bind (.next_element h) fun p => ?_
    obtain ⟨o, s'⟩ := p
    cases o with
    | none => exact .pure _
    | some v => exact .bind (built_visitVec h n _) fun vs => .pure _

theorem built_visitMap {dk dv : De Val} (hk : Built dk) (hv : Built dv) :
    ∀ (n : Nat) (s : MapAcc) (es : List (Val × Val)), Built (visitMap dk dv n s es)
  | 0, _, _ => .depth
  | n + 1, s, es => by
    unfold visitMap
    refine .bind (.next_key hk) fun p => ?_
    obtain ⟨o, s'⟩ := p
    cases o with
    | none => exact .pure _
    | some v => exact .bind (.next_value hv) fun vs => built_visitMap hk hv n _ _

theorem built_enumerate_u8_loop (size : Nat) : ∀ (n : Nat) (s : Seq) (st : Bytes × Nat),
    Built (enumerate_u8_loop size n s st)
  | 0, _, _ => .pure _
  | n + 1, s, st => by
    unfold enumerate_u8_loop
    refine .bind (.next_element (.u32 fun a => .pure a)) fun p => ?_
    obtain ⟨o, s'⟩ := p
    cases o with
    | none => exact built_enumerate_u8_loop size n _ _
    | some v => exact built_enumerate_u8_loop size n _ _

theorem built_enumerate_u8 (s : Seq) : Built (enumerate_u8 s) := by
  unfold enumerate_u8
  split
  · exact .panic _
  · exact built_enumerate_u8_loop ..

theorem built_fixed (n : Nat) : Built (fixed_deserialize n) := by
  unfold fixed_deserialize visitFixed
  refine .tuple fun s => .bind (built_enumerate_u8 s) fun v => ?_
  split
  · exact .pure _
  · exact .panic _

theorem built_variable : Built variable_deserialize := .seq fun s => built_enumerate_u8 s

theorem built_signed32 {α : Type} (f : Int32 → Res α) : Built (signed32_deserialize f) := by
  unfold signed32_deserialize
  refine .bind (.i32 fun a => .pure a) fun v => ?_
  split
  · exact .custom _
  · rename_i h; exact .ofRes _ fun e he => h e he

theorem built_deDef {field : Ty → De Val} (hf : ∀ t, Built (field t)) (name : String) (d : Def) :
    Built (deDef field name d) := by
  have hm : ∀ (ts : List Ty), ∀ d ∈ ts.map field, Built d := by
    intro ts d hd
    obtain ⟨t, _, rfl⟩ := List.mem_map.mp hd
    exact hf t
  have hm2 : ∀ (fs : List (String × Ty)), ∀ d ∈ fs.map (fun f => field f.2), Built d := by
    intro ts d hd
    obtain ⟨t, _, rfl⟩ := List.mem_map.mp hd
    exact hf t.2
  cases d with
  | unitStruct => exact .unit_struct (n := name) (.pure _)
  | newtypeStruct t => exact .newtype_struct (n := name) ((hf t).map' _)
  | tupleStruct ts =>
    exact .map' (.tuple_struct fun s => built_visitEach _ _ _ _ (hm ts)) _
  | struct fs =>
    exact .map' (.struct fun s => built_visitEach _ _ _ _ (hm2 fs)) _
  | enum vars =>
    unfold deDef
    refine .enum (.bind (.variant_seed fun i => ?_) fun i => ?_)
    · unfold variantIndex
      split
      · exact .pure _
      · exact .custom _
    · split
      · exact .panic _
      · exact .bind .unit_variant fun _ => .pure _
      · exact .map' (.newtype_variant (hf _)) _
      · exact .map' (.tuple_variant fun s => built_visitEach _ _ _ _ (hm _)) _
      · exact .map' (.struct_variant fun s => built_visitEach _ _ _ _ (hm2 _)) _
  | indexer vars impl =>
    unfold deDef
    refine .tuple fun s => ?_
    unfold visitIndexer
    refine .bind (.next_element (.i32 fun a => .pure a)) fun p => ?_
    obtain ⟨o, s'⟩ := p
    cases o with
    | none => exact .panic _
    | some v =>
      dsimp only
      split
      · exact .custom _
      · exact .panic _
      · exact .depth
      · split
        · exact .panic _
        · exact .pure _
        · exact .map' (built_visitUnwrap _ _ (hm _)) _
  | union disc vars impl =>
    unfold deDef
    refine .tuple fun s => ?_
    unfold visitUnion
    refine .bind (.next_element (hf _)) fun p => ?_
    obtain ⟨o, s'⟩ := p
    cases o with
    | none => exact .panic _
    | some v =>
      dsimp only
      split
      · exact .custom _
      · exact .panic _
      · exact .depth
      · split
        · exact .panic _
        · exact .pure _
        · exact .pure _
        · exact .map' (built_visitUnwrap _ _ (hm _)) _

theorem built_deTy (env : Env) : ∀ (n : Nat) (t : Ty), Built (deTy env n t)
  | 0, _ => .depth
  | n + 1, t => by
    have ih := built_deTy env n
    cases t with
    | bool => exact .bool fun _ => .pure _
    | i8 => exact .i8 fun _ => .pure _
    | i16 => exact .i16 fun _ => .pure _
    | i32 => exact .i32 fun _ => .pure _
    | i64 => exact .i64 fun _ => .pure _
    | u8 => exact .u8 fun _ => .pure _
    | u16 => exact .u16 fun _ => .pure _
    | u32 => exact .u32 fun _ => .pure _
    | u64 => exact .u64 fun _ => .pure _
    | f32 => exact .f32 fun _ => .pure _
    | f64 => exact .f64 fun _ => .pure _
    | char => exact .char fun _ => .pure _
    | string => exact .string fun _ => .pure _
    | bytes => exact .byte_buf fun _ => .pure _
    | option t => exact .option (.pure _) ((ih t).map' _)
    | unit => exact .unit (.pure _)
    | vec t => exact .map' (.seq fun s => built_visitVec (ih t) _ _) _
    | array len t =>
      refine .map' (.tuple fun s => built_visitEach _ _ _ _ ?_) _
      intro d hd
      rw [List.eq_of_mem_replicate hd]
      exact ih t
    | tuple ts =>
      refine .map' (.tuple fun s => built_visitEach _ _ _ _ ?_) _
      intro d hd
      obtain ⟨t, _, rfl⟩ := List.mem_map.mp hd
      exact ih t
    | map k v => exact .map' (.map fun s => built_visitMap (ih k) (ih v) _ _ _) _
    | opaqueFixed len => exact .map' (built_fixed len) _
    | opaqueVar => exact .map' built_variable _
    | signed32 _ impl => exact built_signed32 _
    | named name =>
      unfold deTy
      dsimp only
      split
      · exact .panic _
      · exact built_deDef ih name _

end Xdr
