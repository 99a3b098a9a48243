import Verif.Spec.FixedOpaque
import Verif.RpcgenProofs.Elements
/-!
# Generated types without opaque data of variable length
-/

namespace Xdr.Rpcgen

/-- No `VariableArray` in a type. -/
def RTy.Plain : RTy → Prop
  | .variableArray => False
  | .array t _ _ => t.Plain
  | .vec t => t.Plain
  | .option t => t.Plain
  | .box t => t.Plain
  | _ => True

section
variable {ds : List Definition} {cfg : Config} {n : Nat}

mutual
theorem SpecType.plain (hf : FixedOpaques ds) {drop : Bool} :
    ∀ {ts ty op}, SpecType ds drop ts ty op → ty.Plain ∧ op = .none
  | _, _, _, .int | _, _, _, .uint | _, _, _, .hyper | _, _, _, .uhyper | _, _, _, .float
  | _, _, _, .double | _, _, _, .bool | _, _, _, .char | _, _, _, .uchar | _, _, _, .short
  | _, _, _, .ushort => ⟨trivial, rfl⟩
  | _, _, _, .typedef _ ht h =>
    have hin := (typeOf_mem ht).1
    have := DeclType.plain hf h (.inl hin)
    ⟨this.1, this.2.2 (.inl hin)⟩
  | _, _, _, .name _ _ => ⟨trivial, rfl⟩

theorem DeclType.plain (hf : FixedOpaques ds) {drop : Bool} :
    ∀ {d ty op}, DeclType ds drop d ty op → TypedefIn ds d ∨ MemberIn ds d ∨ ArmIn ds d ∨ DefaultIn ds d →
      ty.Plain ∧ op ≠ .variable ∧ (TypedefIn ds d ∨ ArmIn ds d → op = .none)
  | _, _, _, .variable h, _ => by
    obtain ⟨h1, rfl⟩ := SpecType.plain hf h
    exact ⟨h1, by simp, fun _ => rfl⟩
  | _, _, _, .fixedArray h _, _ => by
    obtain ⟨h1, rfl⟩ := SpecType.plain hf h
    exact ⟨by simpa only [RTy.Plain] using h1, by simp, fun _ => rfl⟩
  | _, _, _, .variableArray h _, _ => by
    obtain ⟨h1, rfl⟩ := SpecType.plain hf h
    exact ⟨by simpa only [RTy.Plain] using h1, by simp, fun _ => rfl⟩
  | _, _, _, .opaqueArray h, _ => nomatch (SpecType.plain hf h).2
  | _, _, _, .opaqueFixed _, _ => ⟨by simp only [RTy.Plain], by simp, fun hin => absurd rfl (hf.noFixed _ hin _ _)⟩
  | _, _, _, .opaqueVar, hin => absurd rfl (hf.noVariable _ hin _ _)
  | _, _, _, .string, _ => ⟨trivial, by simp, fun _ => rfl⟩
  | _, _, _, .option h, _ => by
    obtain ⟨h1, rfl⟩ := SpecType.plain hf h
    exact ⟨by simpa only [RTy.Plain] using h1, by simp, fun _ => rfl⟩
end

theorem every_plain (hf : FixedOpaques ds) : EveryType ds cfg n (ArmIn ds) (DefaultIn ds) (fun _ => True) RTy.Plain (· ≠ .variable) where
  decl _ hin _ _ h := (DeclType.plain hf (decl_sound h) (.inr (.inr hin))).1
  cond ts ty _ h := by
    unfold condType at h
    split at h
    · next p hp =>
      cases h
      exact (SpecType.plain hf (spec_sound (fun h => decl_sound h) hp)).1
    · split at h
      · simp only [GR.bind_eq_ok, GR.ok.injEq] at h
        obtain ⟨i, -, rfl⟩ := h
        trivial
      · cases h
    · cases h
    · cases h
  bool := trivial
  opaques _ hin _ _ h hop :=
    absurd ((DeclType.plain hf (decl_sound h) (.inr (.inr (.inl hin)))).2.2 (.inr hin)) hop
  plain := by simp

/-- The fields of the items of a generated file. -/
def Item.Plain : Item → Prop
  | .struct s => ∀ f ∈ s.fields, f.1 ≠ .variable ∧ f.2.2.Plain
  | .union u => ∀ v ∈ u.variants, v.Each RTy.Plain (· ≠ .variable)
  | _ => True

theorem item_plain (hrt : cfg.remove_typedef = true) (hf : FixedOpaques ds)
    {file : RustFile} (hg : gen_code n ds cfg = .ok file) : ∀ i ∈ file.types, i.Plain := by
  intro i hi
  have H : EveryType ds cfg n (ArmIn ds) (DefaultIn ds) (fun _ => True) RTy.Plain (· ≠ .variable) := every_plain hf
  rcases item_origin hrt hg hi with ⟨nm, as, e, hin, rfl, he⟩ | ⟨nm, ms, s', hin, rfl, hc⟩ | ⟨nm, b, u, hin, rfl, hc⟩
  · trivial
  · have hfs := (convert_struct_ok hc).2
    intro f hf'
    obtain ⟨d', hd', h1⟩ := forall₂_mem_right hfs hf'
    obtain ⟨_, ts, ty, op, -, -, hty, -, h2, h3⟩ := convertField_ok h1
    obtain ⟨k1, k2, -⟩ := DeclType.plain hf (decl_sound hty) (.inr (.inl ⟨nm, ms, hin, hd'⟩))
    refine ⟨?_, ?_⟩
    · rw [h3]
      cases op with
      | «variable» => exact absurd rfl k2
      | fixed => simp
      | none =>
        dsimp only
        split <;> simp
    · rw [h2]
      split
      · exact k1
      · exact k1
  · exact union_each H (fun l hl => ⟨nm, b, l.1, hin, hl⟩) (fun _ _ _ => trivial) (fun d hb => ⟨nm, b, hin, hb⟩) hc

end

/-- No opaque data of variable length in a type, up to names. -/
def _root_.Xdr.Ty.NoOpaque : Ty → Prop
  | .opaqueVar => False
  | .named x => x ≠ variableArrayName
  | .option t => t.NoOpaque
  | .vec t => t.NoOpaque
  | .array _ t => t.NoOpaque
  | .tuple _ => False
  | .map _ _ => False
  | _ => True

theorem meaning_NoOpaque {cs : List ConstItem} {rty : RTy} {t : Ty} (h : rty.meaning cs = some t)
    (hf : rty.Plain) (hp : ∀ p ∈ rty.paths, p.str ≠ variableArrayName) : t.NoOpaque := by
  induction rty generalizing t with
  | array ty len c ih =>
    simp only [RTy.meaning, Option.bind_eq_some_iff] at h
    obtain ⟨t', h1, h2⟩ := h
    obtain ⟨k, hk, -, rfl⟩ := arrayTy_some h2
    simp only [Ty.NoOpaque]
    exact ih h1 hf hp
  | vec ty ih =>
    simp only [RTy.meaning, Option.map_eq_some_iff] at h
    obtain ⟨t', h1, rfl⟩ := h
    simp only [Ty.NoOpaque]
    exact ih h1 hf hp
  | option ty ih =>
    simp only [RTy.meaning, Option.map_eq_some_iff] at h
    obtain ⟨t', h1, rfl⟩ := h
    simp only [Ty.NoOpaque]
    exact ih h1 hf hp
  | box ty ih => exact ih h hf hp
  | variableArray => exact hf.elim
  | path i =>
    cases h
    simp only [Ty.NoOpaque]
    exact hp i (by simp [RTy.paths])
  | _ =>
    cases h
    simp only [Ty.NoOpaque]

theorem field_NoOpaque {cs : List ConstItem} {enums : List EnumItem} {a : Attr} {rty : RTy} {t : Ty}
    (h : fieldMeaning cs enums a rty = some t) (ha : a ≠ .variable) (hf : rty.Plain)
    (hp : ∀ p ∈ rty.paths, p.str ≠ variableArrayName) : t.NoOpaque := by
  unfold fieldMeaning at h
  split at h
  · exact meaning_NoOpaque h hf hp
  · obtain ⟨k, hk, -, rfl⟩ := arrayTy_some h
    simp only [Ty.NoOpaque]
  · exact absurd rfl ha
  · split at h
    · split at h
      · cases h
        simp only [Ty.NoOpaque]
      · cases h
    · cases h
  · cases h

section
variable {file : RustFile} {defs : List (String × Def)} {ds : List Definition} {cfg : Config} {n : Nat}

theorem item_not_variableArray (hg : gen_code n ds cfg = .ok file) {p : RIdent} (hp : p ∈ file.types.map Item.name) :
    p.str ≠ variableArrayName := by
  obtain ⟨i, hi, rfl⟩ := List.mem_map.1 hp
  intro he
  obtain ⟨s, hs⟩ := item_name hg hi
  have ht := camel_text hs
  refine upper_camel_case_no s ?_
  have : i.name.text = variableArrayName.toList := by
    rw [← he]
    simp [RIdent.str]
  rw [← ht, this]
  decide

theorem types_NoOpaque (hg : gen_code n ds cfg = .ok file) (hd : file.defs = some defs)
    (hpl : ∀ i ∈ file.types, i.Plain) {x : String} {d : Def} (hx : Xdr.program defs x = some d)
    (hne : x ≠ variableArrayName) : ∀ t ∈ d.types, t.NoOpaque := by
  rcases program_origin hd hx with ⟨rfl, -⟩ | ⟨i, hi, hn, hm⟩
  · exact absurd rfl hne
  · have hp : ∀ p ∈ i.paths, p.str ≠ variableArrayName := fun p hp =>
      item_not_variableArray hg ((namesOk_iff.1 (defs_ok hd).1).2.2.1 _ hi p hp)
    cases i with
    | «alias» n t => cases hm
    | enum e =>
      simp only [Item.meaning, EnumItem.meaning] at hm
      intro t ht
      split at hm
      · split at hm
        · simp only [Option.map_eq_some_iff] at hm
          obtain ⟨ix, -, rfl⟩ := hm
          simp only [Def.types, List.mem_flatMap, List.mem_map] at ht
          obtain ⟨_, ⟨v, -, rfl⟩, ht⟩ := ht
          cases ht
        · cases hm
          simp only [Def.types, List.mem_flatMap, List.mem_map] at ht
          obtain ⟨_, ⟨v, -, rfl⟩, ht⟩ := ht
          cases ht
      · cases hm
    | struct s =>
      have hf := hpl _ hi
      simp only [Item.meaning, StructItem.meaning] at hm
      split at hm
      · simp only [Option.map_eq_some_iff] at hm
        obtain ⟨fs, h1, rfl⟩ := hm
        intro t ht
        simp only [Def.types, List.mem_map] at ht
        obtain ⟨p, hp1, rfl⟩ := ht
        obtain ⟨f, hfm, -, -, h2⟩ := forall₂_mem_right (fieldsMeaning_each h1) hp1
        refine field_NoOpaque h2 (hf f hfm).1 (hf f hfm).2 fun q hq => hp q ?_
        simp only [Item.paths, List.mem_flatMap]
        exact ⟨f, hfm, hq⟩
      · cases hm
    | union u =>
      have hf : ∀ v ∈ u.variants, v.Each RTy.Plain (· ≠ .variable) := hpl _ hi
      have hpv : ∀ v ∈ u.variants, ∀ r ∈ v.fields, ∀ q ∈ r.paths, q.str ≠ variableArrayName := by
        intro v hv r hr q hq
        refine hp q ?_
        simp only [Item.paths, List.mem_flatMap]
        exact ⟨v, hv, r, hr, hq⟩
      obtain ⟨-, ⟨hder, vars, h1, rfl⟩ | ⟨hder, ix, vars, hix, h1, -, -, -, rfl⟩ |
        ⟨hder, un, vars, cond, dt, hun, h1, hcond, hfit, hhead, -, hne', hdt, rfl⟩⟩ := union_meaning_ok hm
      · intro t ht
        simp only [Def.types, List.mem_flatMap] at ht
        obtain ⟨w, hw, ht⟩ := ht
        obtain ⟨v, hv, i, -, -, -, hsh⟩ := forall₂_mem_right (variantsMeaning_ok h1) hw
        unfold Variant.shape at hsh
        split at hsh
        · simp only [Option.some.injEq] at hsh
          rw [← hsh] at ht
          cases ht
        · next r hr =>
          simp only [Option.map_eq_some_iff] at hsh
          obtain ⟨t', h2, h3⟩ := hsh
          rw [← h3] at ht
          simp only [Shape.types, List.mem_singleton] at ht
          subst ht
          have hr' : r ∈ v.fields := by rw [hr]; exact List.mem_cons_self
          exact field_NoOpaque h2 (hf v hv).1 ((hf v hv).2 r hr') (hpv v hv r hr')
        · cases hsh
      · intro t ht
        simp only [Def.types, List.mem_flatMap] at ht
        obtain ⟨w, hw, ht⟩ := ht
        obtain ⟨v, hv, r, hr, h2⟩ := variants_Elems h1 hw ht
        exact meaning_NoOpaque h2 ((hf v hv).2 r hr) (hpv v hv r hr)
      · intro t ht
        simp only [Def.types, List.mem_cons, List.mem_flatMap] at ht
        rcases ht with rfl | ⟨w, hw, ht⟩
        · rcases cond_cases hne' hfit with rfl | rfl | ⟨e, c, he, rfl⟩
          · cases hdt
            simp only [Ty.NoOpaque]
          · cases hdt
            simp only [Ty.NoOpaque]
          · cases hdt
            simp only [Ty.NoOpaque]
            have hn' : e.name = c := by simpa using List.find?_some he
            rw [← hn']
            exact item_not_variableArray hg (List.mem_map.2 ⟨_, find_enum he, rfl⟩)
        · obtain ⟨v, hv, r, hr, h2⟩ := variants_Elems h1 hw ht
          exact meaning_NoOpaque h2 ((hf v hv).2 r hr) (hpv v hv r hr)

theorem no_opaques {env : Env} (h : ∀ x d, env x = some d → x ≠ variableArrayName → ∀ t ∈ d.types, t.NoOpaque)
    {x : String} (hx : x ≠ variableArrayName) : ¬ Xdr.Reaches env (.named x) .opaqueVar := by
  have key : ∀ u, Xdr.Reaches env (.named x) u → u.NoOpaque := by
    intro u hu
    induction hu with
    | refl => simpa only [Ty.NoOpaque] using hx
    | @tail u w _ hw ih =>
      cases u with
      | named name =>
        simp only [Ty.NoOpaque] at ih
        simp only [Ty.parts] at hw
        split at hw
        · cases hw
        · next d hd => exact h name d hd ih w hw
      | tuple ts => simp only [Ty.NoOpaque] at ih
      | map k v => simp only [Ty.NoOpaque] at ih
      | vec t =>
        simp only [Ty.parts, List.mem_singleton] at hw
        subst hw
        simpa only [Ty.NoOpaque] using ih
      | option t =>
        simp only [Ty.parts, List.mem_singleton] at hw
        subst hw
        simpa only [Ty.NoOpaque] using ih
      | array n t =>
        simp only [Ty.parts, List.mem_singleton] at hw
        subst hw
        simpa only [Ty.NoOpaque] using ih
      | _ => cases hw
  intro hr
  have := key _ hr
  simp only [Ty.NoOpaque] at this

end

end Xdr.Rpcgen
