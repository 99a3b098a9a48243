import Verif.RpcgenProofs.Rustc
import Verif.RpcgenProofs.Outcome
import Verif.RpcgenProofs.DefaultEnds
import Verif.Props.GenVariants
import Verif.Props.Consts
import Verif.Spec.Needed
/-!
# What source that compiles says about the interface
-/

namespace Xdr.Rpcgen

/-! ## Types and fields -/

/-- A field rustc takes has a type it takes without the attribute. -/
theorem meaning_of_field {cs : List ConstItem} {enums : List EnumItem} {a : Attr} {t : RTy} {ty : Ty}
    (h : fieldMeaning cs enums a t = some ty) : ∃ ty', t.meaning cs = some ty' := by
  unfold fieldMeaning at h
  split at h
  · exact ⟨_, h⟩
  · next len cast =>
    simp only [arrayTy] at h
    split at h
    · next n hn =>
      split at h
      · next hle =>
        refine ⟨.array n .u8, ?_⟩
        simp [RTy.meaning, arrayTy, hn, hle]
      · cases h
    · cases h
  · exact ⟨_, rfl⟩
  · exact ⟨_, rfl⟩
  · cases h

section
variable {ds : List Definition} {cfg : Config}

mutual
theorem SpecType.noOpaque : ∀ {ts ty op}, SpecType ds true ts ty op → op ≠ .none →
    ∃ name d, ts = .identifier name ∧ typeOf ds name = some (.declaration d) ∧ HasOpaque ds d
  | _, _, _, .int, h | _, _, _, .uint, h | _, _, _, .hyper, h | _, _, _, .uhyper, h
  | _, _, _, .float, h | _, _, _, .double, h | _, _, _, .bool, h | _, _, _, .char, h
  | _, _, _, .uchar, h | _, _, _, .short, h | _, _, _, .ushort, h => absurd rfl h
  | _, _, _, .typedef _ ht hd, h => ⟨_, _, rfl, ht, DeclType.noOpaque hd h⟩
  | _, _, _, .name _ _, h => absurd rfl h

/-- A type with an attribute is of opaque data. -/
theorem DeclType.noOpaque : ∀ {d ty op}, DeclType ds true d ty op → op ≠ .none → HasOpaque ds d
  | _, _, _, .variable hs, h => by
    obtain ⟨name, d, rfl, ht, ho⟩ := SpecType.noOpaque hs h
    exact .typedef rfl ht ho
  | _, _, _, .fixedArray hs _, h => by
    obtain ⟨name, d, rfl, ht, ho⟩ := SpecType.noOpaque hs h
    exact .typedef rfl ht ho
  | _, _, _, .variableArray hs _, h => by
    obtain ⟨name, d, rfl, ht, ho⟩ := SpecType.noOpaque hs h
    exact .typedef rfl ht ho
  | _, _, _, .opaqueArray _, h => absurd rfl h
  | _, _, _, .opaqueFixed _, _ => .fixed
  | _, _, _, .opaqueVar, _ => .variable
  | _, _, _, .string, h => absurd rfl h
  | _, _, _, .option hs, h => by
    obtain ⟨name, d, rfl, ht, ho⟩ := SpecType.noOpaque hs h
    exact .typedef rfl ht ho
end

/-- Opaque data has an attribute. -/
theorem IsOpaque.op {d : Declaration} (h : IsOpaque ds d) : ∀ {ty op}, DeclType ds true d ty op → op ≠ .none := by
  induction h with
  | fixed =>
    intro ty op hd
    cases hd
    simp
  | «variable» =>
    intro ty op hd
    cases hd
    simp
  | typedef ht _ ih =>
    intro ty op hd
    cases hd with
    | «variable» hs =>
      cases hs with
      | typedef _ ht' hd' =>
        rw [ht] at ht'
        cases ht'
        exact ih hd'
      | name hn _ => exact absurd ht (hn rfl _)

/-- The type `u8` has no attribute. -/
theorem SpecType.u8 {ts : TypeSpecifier} {ty : RTy} {op : OpaqueType} (h : SpecType ds true ts ty op) :
    ty = .u8 → op = .none := by
  refine SpecType.rec (motive_1 := fun _ ty op _ => ty = .u8 → op = .none)
    (motive_2 := fun _ ty op _ => ty = .u8 → op = .none) ?_ ?_ ?_ ?_ ?_ ?_ ?_ ?_ ?_ ?_ ?_ ?_ ?_ ?_ ?_ ?_ ?_ ?_ ?_ ?_ ?_ h
  all_goals try (intros; rfl)
  all_goals try (intros; contradiction)
  · intro _ _ _ _ _ _ _ ih
    exact ih
  · intro _ _ _ _ _ ih
    exact ih

/-! ## What is shown -/

/-- rustc takes the type in the file. -/
def Taken (file : RustFile) (ty : RTy) : Prop :=
  (∃ t, ty.meaning file.constants = some t) ∧ ∀ p ∈ ty.paths, p ∈ file.types.map Item.name

theorem fieldsMeaning_mem {cs : List ConstItem} {enums : List EnumItem} {fs : List (Attr × RIdent × RTy)}
    {r : List (String × Ty)} (h : fieldsMeaning cs enums fs = some r) :
    ∀ f ∈ fs, f.2.1.usable = true ∧ ∃ ty, fieldMeaning cs enums f.1 f.2.2 = some ty := by
  induction fs generalizing r with
  | nil => simp
  | cons f fs ih =>
    obtain ⟨a, i, t⟩ := f
    simp only [fieldsMeaning] at h
    split at h
    · next hu =>
      split at h
      · next x y hx hy =>
        intro g hg
        rcases List.mem_cons.1 hg with rfl | hg
        · exact ⟨hu, _, hx⟩
        · exact ih hy g hg
      · cases h
    · cases h

/-- A structure rustc takes. -/
theorem struct_taken {file : RustFile} {defs : List (String × Def)} (hdefs : file.defs = some defs) {s : StructItem}
    (hs : .struct s ∈ file.types) : (s.fields.map (·.2.1.str)).Nodup ∧ ∀ f ∈ s.fields, f.2.1.usable = true ∧
      Taken file f.2.2 ∧ ∃ ty, fieldMeaning file.constants file.enums f.1 f.2.2 = some ty := by
  obtain ⟨d, hd, -⟩ := defs_lookup hdefs hs
  simp only [Item.meaning, StructItem.meaning] at hd
  split at hd
  · next hnd =>
    simp only [Option.map_eq_some_iff] at hd
    obtain ⟨r, hr, -⟩ := hd
    refine ⟨hnd, fun f hf => ?_⟩
    obtain ⟨h1, ty, h2⟩ := fieldsMeaning_mem hr f hf
    refine ⟨h1, ⟨meaning_of_field h2, fun p hp => ?_⟩, ty, h2⟩
    exact (namesOk_iff.1 (defs_ok hdefs).1).2.2.1 _ hs p (List.mem_flatMap.2 ⟨f, hf, hp⟩)
  · cases hd

/-- A union rustc takes. -/
theorem union_taken {file : RustFile} {defs : List (String × Def)} (hdefs : file.defs = some defs) {u : UnionItem}
    (hu : .union u ∈ file.types) : (u.variants.map (·.name.str)).Nodup ∧ ∀ v ∈ u.variants,
      (∃ id, v.name = .ident id ∧ id.usable = true) ∧ ∀ t ∈ v.fields, Taken file t ∧
        ∃ ty, fieldMeaning file.constants file.enums v.attr t = some ty := by
  obtain ⟨d, hd, -⟩ := defs_lookup hdefs hu
  simp only [Item.meaning] at hd
  obtain ⟨h1, h2⟩ := union_variants hd
  have hid : ∀ v ∈ u.variants, ∃ id, v.name.name? = some id := by
    have key : ∀ {α : Type} {f : Variant → Option α} {vs : List Variant} {r : List (String × α)},
        variantsMeaning f vs = some r → ∀ v ∈ vs, ∃ id, v.name.name? = some id := by
      intro α f vs r hr
      induction vs generalizing r with
      | nil => simp
      | cons v vs ih =>
        simp only [variantsMeaning] at hr
        split at hr
        · next i a r' hi _ hr' =>
          intro w hw
          rcases List.mem_cons.1 hw with rfl | hw
          · exact ⟨_, hi⟩
          · exact ih hr' w hw
        · cases hr
    unfold UnionItem.meaning at hd
    rw [if_pos h1] at hd
    split at hd
    · simp only [Option.map_eq_some_iff] at hd
      obtain ⟨r, hr, -⟩ := hd
      exact key hr
    · split at hd
      · next hr => exact key hr
      · cases hd
    · split at hd
      · next hr => exact key hr
      · cases hd
  refine ⟨h1, fun v hv => ⟨?_, fun t ht => ?_⟩⟩
  · obtain ⟨id, hi⟩ := hid v hv
    unfold Tok.name? at hi
    split at hi
    · next i hvn =>
      split at hi
      · next hus => exact ⟨i, hvn, hus⟩
      · cases hi
    · cases hi
  · obtain ⟨i, hi, rfl⟩ := List.mem_iff_getElem.1 hv
    obtain ⟨ty, hty⟩ := (h2 i _ (List.getElem?_eq_getElem hi)).2 t ht
    refine ⟨⟨meaning_of_field hty, fun p hp => ?_⟩, ty, hty⟩
    exact (namesOk_iff.1 (defs_ok hdefs).1).2.2.1 _ hu p
      (List.mem_flatMap.2 ⟨_, hv, List.mem_flatMap.2 ⟨t, ht, hp⟩⟩)

section
variable {n : Nat} {file : RustFile} {defs : List (String × Def)}

theorem taken_box {ty : RTy} (h : Taken file (.box ty)) : Taken file ty := h

/-- A member of a structure rustc takes. -/
theorem member_taken (hrt : cfg.remove_typedef = true) (hg : gen_code n ds cfg = .ok file)
    (hdefs : file.defs = some defs) {d : Declaration} (h : MemberIn ds d) :
    ∃ ty op, DeclType ds true d ty op ∧ Taken file ty ∧
      (op ≠ .none → ∃ t, fieldMeaning file.constants file.enums op.attr ty = some t) := by
  obtain ⟨sn, ms, hm, hd⟩ := h
  obtain ⟨s, hs, hmem⟩ := gen_code_struct hg hm
  obtain ⟨-, hfs⟩ := convert_struct_ok hs
  obtain ⟨r, hr, h1⟩ := forall₂_mem_left hfs hd
  obtain ⟨f, ts, ty, op, hf, hts, hty, -, hr2, hr1⟩ := convertField_ok h1
  obtain ⟨-, htk, t, ht⟩ := (struct_taken hdefs hmem).2 r hr
  refine ⟨ty, op, hrt ▸ decl_sound hty, ?_, fun hop => ?_⟩
  · rw [hr2] at htk
    split at htk
    · exact htk
    · exact htk
  · have hattr : r.1 = op.attr := by
      rw [hr1]
      cases op with
      | none => exact absurd rfl hop
      | _ => rfl
    rw [hattr, hr2] at ht
    split at ht
    · exfalso
      cases op with
      | none => exact hop rfl
      | fixed => simp [OpaqueType.attr, fieldMeaning] at ht
      | «variable» => simp [OpaqueType.attr, fieldMeaning] at ht
    · exact ⟨t, ht⟩

theorem mem_withCond {ct ty : RTy} {ts : List RTy} (h : ty ∈ ts) : ty ∈ withCond cfg ct ts := by
  unfold withCond
  split
  · exact List.mem_cons_of_mem _ h
  · exact h

/-- An arm of a union rustc takes. -/
theorem arm_taken {src : Str} (hp : parse src = .ok ds) (hrt : cfg.remove_typedef = true)
    (hg : gen_code n ds cfg = .ok file) (hdefs : file.defs = some defs) {un : Str} {b : UnionBody}
    {l : Value × Declaration} (hm : .type (.union un b) ∈ ds) (hl : l ∈ b.used) (hv : l.2 ≠ .void) :
    ∃ ty op, DeclType ds true l.2 ty op ∧ (cfg.union_complement_index = true ∨ op = .none → Taken file ty ∧
      (op ≠ .none → ∃ t, fieldMeaning file.constants file.enums op.attr ty = some t)) := by
  obtain ⟨u, cond, nm, ct, cases_, vs, res, dflt, hmem, -, -, -, hvar, hperm, hvs, -, -, -⟩ :=
    C66_variants_partial hp hg hm
  obtain ⟨v, hvm, hvo⟩ := forall₂_mem_left hvs hl
  have hvu : v ∈ u.variants := by
    rw [hvar]
    exact List.mem_append_left _ (hperm.mem_iff.2 (List.mem_append_left _ hvm))
  obtain ⟨-, hts⟩ := (union_taken hdefs hmem).2 v hvu
  obtain ⟨ts, harm, hf⟩ := hvo.arm
  rw [hf] at hts
  generalize l.2 = d at *
  generalize v.attr = a at *
  cases harm with
  | void => exact absurd rfl hv
  | plain hdt =>
    obtain ⟨h1, h2⟩ := hts _ (mem_withCond List.mem_cons_self)
    exact ⟨_, _, hrt ▸ hdt, fun _ => ⟨h1, fun h => absurd rfl h⟩⟩
  | fixed hdt _ =>
    obtain ⟨h1, h2⟩ := hts _ (mem_withCond List.mem_cons_self)
    exact ⟨_, .fixed, hrt ▸ hdt, fun _ => ⟨h1, fun _ => h2⟩⟩
  | «variable» hdt _ =>
    obtain ⟨h1, h2⟩ := hts _ (mem_withCond List.mem_cons_self)
    exact ⟨_, .variable, hrt ▸ hdt, fun _ => ⟨h1, fun _ => h2⟩⟩
  | wrapped hdt hop hcx =>
    refine ⟨_, _, hrt ▸ hdt, ?_⟩
    rintro (h | h)
    · rw [hcx] at h
      cases h
    · exact absurd h hop

/-- A default arm of a union rustc takes. -/
theorem default_taken {src : Str} (hp : parse src = .ok ds) (hrt : cfg.remove_typedef = true)
    (hg : gen_code n ds cfg = .ok file) (hdefs : file.defs = some defs) {d : Declaration} (h : DefaultIn ds d)
    (hv : d ≠ .void) : ∃ ty op, DeclType ds true d ty op ∧ Taken file ty := by
  obtain ⟨un, b, hm, hb⟩ := h
  obtain ⟨u, cond, nm, ct, cases_, vs, res, dflt, hmem, -, -, -, hvar, -, -, -, -, hd⟩ :=
    C66_variants_partial hp hg hm
  rw [hb] at hd
  cases hd with
  | void => exact absurd rfl hv
  | @some _ ty op hdt =>
    refine ⟨ty, op, hrt ▸ hdt, ?_⟩
    have hvu := (union_taken hdefs hmem).2 _ (by rw [hvar]; exact List.mem_append_right _ List.mem_cons_self)
    exact (hvu.2 ty (mem_withCond List.mem_cons_self)).1

theorem spec_typedef {name : Str} {d : Declaration} {ty : RTy} {op : OpaqueType}
    (ht : typeOf ds name = some (.declaration d)) (h : SpecType ds true (.identifier name) ty op) :
    DeclType ds true d ty op := by
  cases h with
  | typedef _ h1 h2 =>
    rw [ht] at h1
    cases h1
    exact h2
  | name hn _ => exact absurd ht (hn rfl _)

theorem taken_array {ty : RTy} {len : Tok} {cast : Bool} (h : Taken file (.array ty len cast)) : Taken file ty := by
  obtain ⟨⟨t, ht⟩, hp⟩ := h
  simp only [RTy.meaning, Option.bind_eq_some_iff] at ht
  obtain ⟨t', ht', -⟩ := ht
  exact ⟨⟨t', ht'⟩, hp⟩

theorem taken_vec {ty : RTy} (h : Taken file (.vec ty)) : Taken file ty := by
  obtain ⟨⟨t, ht⟩, hp⟩ := h
  simp only [RTy.meaning, Option.map_eq_some_iff] at ht
  obtain ⟨t', ht', -⟩ := ht
  exact ⟨⟨t', ht'⟩, hp⟩

theorem taken_option {ty : RTy} (h : Taken file (.option ty)) : Taken file ty := by
  obtain ⟨⟨t, ht⟩, hp⟩ := h
  simp only [RTy.meaning, Option.map_eq_some_iff] at ht
  obtain ⟨t', ht', -⟩ := ht
  exact ⟨⟨t', ht'⟩, hp⟩

/-- The type of a declaration that is shown is taken. -/
theorem shown_taken {src : Str} (hp : parse src = .ok ds) (hrt : cfg.remove_typedef = true)
    (hg : gen_code n ds cfg = .ok file) (hdefs : file.defs = some defs) {d : Declaration} (h : Shown ds cfg d) :
    ∃ ty op, DeclType ds true d ty op ∧ Taken file ty := by
  induction h with
  | member h =>
    obtain ⟨ty, op, h1, h2, -⟩ := member_taken hrt hg hdefs h
    exact ⟨ty, op, h1, h2⟩
  | arm hm hl hv ho =>
    obtain ⟨ty, op, h1, h2⟩ := arm_taken hp hrt hg hdefs hm hl hv
    refine ⟨ty, op, h1, (h2 ?_).1⟩
    rcases ho with ho | ho
    · exact .inl ho
    · refine .inr ?_
      by_contra hop
      exact ho (h1.noOpaque hop)
  | default h hv => exact default_taken hp hrt hg hdefs h hv
  | @typedef d d' name _ he ht ho ih =>
    obtain ⟨ty, op, hd, htk⟩ := ih
    cases hd with
    | «variable» hs =>
      cases he
      exact ⟨_, _, spec_typedef ht hs, htk⟩
    | fixedArray hs _ =>
      cases he
      exact ⟨_, _, spec_typedef ht hs, taken_array htk⟩
    | variableArray hs _ =>
      cases he
      exact ⟨_, _, spec_typedef ht hs, taken_vec htk⟩
    | opaqueArray hs =>
      cases he
      exact absurd ((spec_typedef ht hs).noOpaque (by simp)) (ho rfl)
    | option hs =>
      cases he
      exact ⟨_, _, spec_typedef ht hs, taken_option htk⟩
    | opaqueFixed _ => cases he
    | opaqueVar => cases he
    | string => cases he

/-- The type of a declaration that is marked goes with its attribute. -/
theorem marked_taken {src : Str} (hp : parse src = .ok ds) (hrt : cfg.remove_typedef = true)
    (hg : gen_code n ds cfg = .ok file) (hdefs : file.defs = some defs) {d : Declaration} (h : Marked ds cfg d) :
    ∃ ty op, DeclType ds true d ty op ∧
      (op ≠ .none → ∃ t, fieldMeaning file.constants file.enums op.attr ty = some t) := by
  induction h with
  | member h =>
    obtain ⟨ty, op, h1, -, h2⟩ := member_taken hrt hg hdefs h
    exact ⟨ty, op, h1, h2⟩
  | arm hm hl hv ho =>
    obtain ⟨ty, op, h1, h2⟩ := arm_taken hp hrt hg hdefs hm hl hv
    exact ⟨ty, op, h1, (h2 (.inl ho)).2⟩
  | @typedef d d' name _ he ht ih =>
    obtain ⟨ty, op, hd, hok⟩ := ih
    cases hd with
    | «variable» hs =>
      cases he
      exact ⟨_, _, spec_typedef ht hs, hok⟩
    | fixedArray hs _ =>
      cases he
      refine ⟨_, _, spec_typedef ht hs, fun hop => ?_⟩
      obtain ⟨t, h⟩ := hok hop
      have hu8 := fun h => hop (SpecType.u8 hs h)
      unfold fieldMeaning at h
      split at h
      · next ha =>
        cases op <;> cases ha
        exact absurd rfl hop
      · next ht => exact absurd (RTy.array.inj ht).1 hu8
      · next ht => cases ht
      · next ht => cases ht
      · cases h
    | option hs =>
      cases he
      refine ⟨_, _, spec_typedef ht hs, fun hop => ?_⟩
      obtain ⟨t, h⟩ := hok hop
      cases op <;> simp [OpaqueType.attr, fieldMeaning] at h hop
    | variableArray hs _ => cases he
    | opaqueArray hs => cases he
    | opaqueFixed _ => cases he
    | opaqueVar => cases he
    | string => cases he

end

end

end Xdr.Rpcgen
