import Verif.Props.Resources
import Verif.Rpcgen.Rustc
import Verif.Spec.SelfMembers
import Verif.RpcgenProofs.Panics
import Verif.RpcgenProofs.EndToEndRep
/-!
# The decoders of a generated program return
-/

namespace Xdr.Rpcgen

/-- The names of types a value has whatever its bytes are. -/
def RTy.bares : RTy → List RIdent
  | .path i => [i]
  | .array t _ _ => t.bares
  | .box t => t.bares
  | _ => []

/-- No `Box` in a type. -/
def RTy.Unboxed : RTy → Prop
  | .array t _ _ => t.Unboxed
  | .vec t => t.Unboxed
  | .option t => t.Unboxed
  | .box _ => False
  | _ => True

mutual
theorem SpecType.unboxed {ds : List Definition} {drop : Bool} : ∀ {ts ty op}, SpecType ds drop ts ty op → ty.Unboxed
  | _, _, _, .int | _, _, _, .uint | _, _, _, .hyper | _, _, _, .uhyper | _, _, _, .float
  | _, _, _, .double | _, _, _, .bool | _, _, _, .char | _, _, _, .uchar | _, _, _, .short
  | _, _, _, .ushort => trivial
  | _, _, _, .typedef _ _ h => DeclType.unboxed h
  | _, _, _, .name _ _ => trivial

theorem DeclType.unboxed {ds : List Definition} {drop : Bool} : ∀ {d ty op}, DeclType ds drop d ty op → ty.Unboxed
  | _, _, _, .variable h => SpecType.unboxed h
  | _, _, _, .fixedArray h _ => by
    simp only [RTy.Unboxed]
    exact SpecType.unboxed h
  | _, _, _, .variableArray h _ => by
    simp only [RTy.Unboxed]
    exact SpecType.unboxed h
  | _, _, _, .opaqueArray h => trivial
  | _, _, _, .opaqueFixed _ => trivial
  | _, _, _, .opaqueVar => trivial
  | _, _, _, .string => trivial
  | _, _, _, .option h => by
    simp only [RTy.Unboxed]
    exact SpecType.unboxed h
end

theorem bares_inline {t : RTy} (h : t.Unboxed) {i : RIdent} (hi : i ∈ t.bares) : i ∈ t.inline := by
  induction t with
  | array t len c ih => exact ih h hi
  | path j => exact hi
  | box t => cases h
  | _ => cases hi

theorem meaning_bare {cs : List ConstItem} {rty : RTy} {t : Ty} (h : rty.meaning cs = some t) {y : String}
    (hy : y ∈ t.bare) : y = variableArrayName ∨ ∃ i ∈ rty.bares, i.str = y := by
  induction rty generalizing t with
  | array ty len c ih =>
    simp only [RTy.meaning, Option.bind_eq_some_iff] at h
    obtain ⟨t', h1, h2⟩ := h
    obtain ⟨k, -, -, rfl⟩ := arrayTy_some h2
    simp only [Ty.bare] at hy
    exact ih h1 hy
  | vec ty ih =>
    simp only [RTy.meaning, Option.map_eq_some_iff] at h
    obtain ⟨t', h1, rfl⟩ := h
    simp [Ty.bare] at hy
  | option ty ih =>
    simp only [RTy.meaning, Option.map_eq_some_iff] at h
    obtain ⟨t', h1, rfl⟩ := h
    simp [Ty.bare] at hy
  | box ty ih => exact ih h hy
  | path i =>
    cases h
    simp only [Ty.bare, List.mem_singleton] at hy
    exact .inr ⟨i, by simp [RTy.bares], hy.symm⟩
  | variableArray =>
    cases h
    simp only [Ty.bare, List.mem_singleton] at hy
    exact .inl hy
  | _ =>
    cases h
    simp [Ty.bare] at hy

theorem field_bare {cs : List ConstItem} {enums : List EnumItem} {a : Attr} {rty : RTy} {t : Ty}
    (h : fieldMeaning cs enums a rty = some t) {y : String}
    (hy : y ∈ t.bare) : y = variableArrayName ∨ ∃ i ∈ rty.bares, i.str = y := by
  unfold fieldMeaning at h
  split at h
  · exact meaning_bare h hy
  · obtain ⟨k, -, -, rfl⟩ := arrayTy_some h
    simp [Ty.bare] at hy
  · cases h
    simp [Ty.bare] at hy
  · split at h
    · split at h
      · cases h
        simp [Ty.bare] at hy
      · cases h
    · cases h
  · cases h

theorem baresOf_mem {ts : List Ty} {y : String} (h : y ∈ baresOf ts) : ∃ t ∈ ts, y ∈ t.bare := by
  induction ts with
  | nil => cases h
  | cons t ts ih =>
    simp only [baresOf, List.mem_append] at h
    rcases h with h | h
    · exact ⟨t, List.mem_cons_self, h⟩
    · obtain ⟨t', h1, h2⟩ := ih h
      exact ⟨t', List.mem_cons_of_mem _ h1, h2⟩

theorem meaning_Returns {cs : List ConstItem} {rty : RTy} {t : Ty} (h : rty.meaning cs = some t) : t.Returns := by
  induction rty generalizing t with
  | array ty len c ih =>
    simp only [RTy.meaning, Option.bind_eq_some_iff] at h
    obtain ⟨t', h1, h2⟩ := h
    obtain ⟨k, -, -, rfl⟩ := arrayTy_some h2
    simp only [Ty.Returns]
    exact ih h1
  | vec ty ih =>
    simp only [RTy.meaning, Option.map_eq_some_iff] at h
    obtain ⟨t', h1, rfl⟩ := h
    simp only [Ty.Returns]
    exact ih h1
  | option ty ih =>
    simp only [RTy.meaning, Option.map_eq_some_iff] at h
    obtain ⟨t', h1, rfl⟩ := h
    simp only [Ty.Returns]
    exact ih h1
  | box ty ih => exact ih h
  | _ =>
    cases h
    simp only [Ty.Returns]

theorem field_Returns {cs : List ConstItem} {enums : List EnumItem} {a : Attr} {rty : RTy} {t : Ty}
    (h : fieldMeaning cs enums a rty = some t) : t.Returns := by
  unfold fieldMeaning at h
  split at h
  · exact meaning_Returns h
  · obtain ⟨k, -, -, rfl⟩ := arrayTy_some h
    simp only [Ty.Returns]
  · cases h
    simp only [Ty.Returns]
  · split at h
    · split at h
      · cases h
        simp only [Ty.Returns]
        intro i
        simp only [signed32Of]
        split
        · split <;> simp
        · simp
      · cases h
    · cases h
  · cases h

theorem tys_Returns {cs : List ConstItem} {rts : List RTy} {ts : List Ty} (h : tysMeaning cs rts = some ts) :
    ∀ t ∈ ts, t.Returns := by
  induction rts generalizing ts with
  | nil =>
    cases h
    simp
  | cons r rts ih =>
    simp only [tysMeaning] at h
    split at h
    · next t ts' h1 h2 =>
      cases h
      intro t' ht'
      rcases List.mem_cons.1 ht' with rfl | ht'
      · exact meaning_Returns h1
      · exact ih h2 t' ht'
    · cases h

section
variable {file : RustFile} {defs : List (String × Def)}

theorem variants_Returns {cs : List ConstItem} {vs : List Variant} {vars : List (String × Option (List Ty))}
    (h : variantsMeaning (·.types cs) vs = some vars) : ∀ w ∈ vars, ∀ t ∈ w.2.getD [], t.Returns := by
  intro w hw t ht
  obtain ⟨v, -, i, -, -, -, h⟩ := forall₂_mem_right (variantsMeaning_ok h) hw
  unfold Variant.types at h
  split at h
  · split at h
    · simp only [Option.some.injEq] at h
      rw [← h] at ht
      cases ht
    · simp only [Option.map_eq_some_iff] at h
      obtain ⟨ts, h1, h2⟩ := h
      rw [← h2] at ht
      exact tys_Returns h1 t ht
  · cases h

/-- The functions of a generated program return. -/
theorem item_Returns {cs : List ConstItem} {enums : List EnumItem} {i : Item} {d : Def}
    (h : i.meaning cs enums = some d) : d.Returns := by
  cases i with
  | «alias» n t => cases h
  | enum e =>
    simp only [Item.meaning, EnumItem.meaning] at h
    split at h
    · split at h
      · simp only [Option.map_eq_some_iff] at h
        obtain ⟨ix, hix, rfl⟩ := h
        refine ⟨?_, fun k => ?_⟩
        · rw [returnsAll_iff]
          simp only [Def.types, List.mem_flatMap, List.mem_map]
          rintro t ⟨_, ⟨v, -, rfl⟩, ht⟩
          cases ht
        · simp only [enumIndexerImpl]
          split <;> simp
      · cases h
        refine ⟨?_, trivial⟩
        rw [returnsAll_iff]
        simp only [Def.types, List.mem_flatMap, List.mem_map]
        rintro t ⟨_, ⟨v, -, rfl⟩, ht⟩
        cases ht
    · cases h
  | struct s =>
    simp only [Item.meaning, StructItem.meaning] at h
    split at h
    · simp only [Option.map_eq_some_iff] at h
      obtain ⟨fs, h1, rfl⟩ := h
      refine ⟨?_, trivial⟩
      rw [returnsAll_iff]
      intro t hmem
      simp only [Def.types, List.mem_map] at hmem
      obtain ⟨p, hp1, rfl⟩ := hmem
      obtain ⟨f, hf, -, -, h2⟩ := forall₂_mem_right (fieldsMeaning_each h1) hp1
      exact field_Returns h2
    · cases h
  | union u =>
    obtain ⟨-, ⟨hder, vars, h1, rfl⟩ | ⟨hder, ix, vars, hix, h1, -, -, -, rfl⟩ |
      ⟨hder, un, vars, cond, dt, hun, h1, hcond, hfit, hhead, -, -, hdt, rfl⟩⟩ := union_meaning_ok h
    · refine ⟨?_, trivial⟩
      rw [returnsAll_iff]
      intro t ht
      simp only [Def.types, List.mem_flatMap] at ht
      obtain ⟨w, hw, ht⟩ := ht
      obtain ⟨v, hv, i, -, -, -, hsh⟩ := forall₂_mem_right (variantsMeaning_ok h1) hw
      unfold Variant.shape at hsh
      split at hsh
      · simp only [Option.some.injEq] at hsh
        rw [← hsh] at ht
        cases ht
      · simp only [Option.map_eq_some_iff] at hsh
        obtain ⟨t', h2, h3⟩ := hsh
        rw [← h3] at ht
        simp only [Shape.types, List.mem_singleton] at ht
        subst ht
        exact field_Returns h2
      · cases hsh
    · refine ⟨?_, fun k => ?_⟩
      · rw [returnsAll_iff]
        intro t ht
        simp only [Def.types, List.mem_flatMap] at ht
        obtain ⟨w, hw, ht⟩ := ht
        exact variants_Returns h1 w hw t ht
      · simp only [unionIndexerImpl]
        split
        · simp
        · split <;> simp
    · refine ⟨?_, fun k => ?_⟩
      · rw [returnsAll_iff]
        intro t ht
        simp only [Def.types, List.mem_cons, List.mem_flatMap] at ht
        rcases ht with rfl | ⟨w, hw, ht⟩
        · exact meaning_Returns hdt
        · exact variants_Returns h1 w hw t ht
      · simp only [unionUnionImpl]
        split
        · simp
        · split <;> simp

/-- A name with nothing behind it that is always read. -/
def Leaf (defs : List (String × Def)) (y : String) : Prop := ∀ d, Xdr.program defs y = some d → d.bare = []

theorem enum_bare {e : EnumItem} {d : Def} (h : e.meaning = some d) : d.bare = [] := by
  unfold EnumItem.meaning at h
  split at h
  · split at h
    · simp only [Option.map_eq_some_iff] at h
      obtain ⟨ix, -, rfl⟩ := h
      rfl
    · cases h
      rfl
  · cases h

theorem enum_leaf (hd : file.defs = some defs) {e : EnumItem} (he : .enum e ∈ file.types) : Leaf defs e.name.str := by
  obtain ⟨d, h1, h2⟩ := defs_lookup hd he
  intro d' h'
  rw [show e.name.str = (Item.enum e).name.str from rfl, h2] at h'
  cases h'
  exact enum_bare h1

/-- The condition of an `XdrUnion` enum. -/
theorem cond_cases {enums : List EnumItem} {un : UnionUnion} {cond : RTy} (hne : un.byValue ≠ [])
    (hfit : ∀ p ∈ un.byValue, p.1.fits enums cond = true) :
    cond = .u32 ∨ cond = .bool ∨ ∃ e c, (enums.find? fun e => e.name = c) = some e ∧ cond = .path c := by
  obtain ⟨p, l, hl⟩ := List.exists_cons_of_ne_nil hne
  have := hfit p (by rw [hl]; exact List.mem_cons_self)
  unfold Pat.fits at this
  split at this
  · split at this
    · next e he =>
      simp only [decide_eq_true_eq] at this
      exact .inr (.inr ⟨e, _, he, this.1⟩)
    · cases this
  · exact .inl (by simpa using this)
  · exact .inr (.inl (by simpa using this))

theorem itemsMeaning_origin {cs : List ConstItem} {enums : List EnumItem} {items : List Item}
    {l : List (String × Def)} (h : itemsMeaning cs enums items = some l) {p : String × Def} (hp : p ∈ l) :
    ∃ i ∈ items, i.name.str = p.1 ∧ i.meaning cs enums = some p.2 := by
  induction items generalizing l with
  | nil =>
    cases h
    cases hp
  | cons i is ih =>
    simp only [itemsMeaning] at h
    split at h
    · next d r hd hr =>
      cases h
      rcases List.mem_cons.1 hp with rfl | hp
      · exact ⟨i, List.mem_cons_self, rfl, hd⟩
      · obtain ⟨j, hj, h⟩ := ih hr hp
        exact ⟨j, List.mem_cons_of_mem _ hj, h⟩
    · cases h

theorem disc_Sized (hd : file.defs = some defs) {x : String} {disc : Ty} {vars : List (String × Option (List Ty))}
    {impl : UnionImpl} (h : (x, Def.union disc vars impl) ∈ defs) : Sized (Xdr.program defs) disc := by
  obtain ⟨-, l, hl, rfl⟩ := defs_ok hd
  rcases List.mem_append.1 h with h | h
  · obtain ⟨i, hi, -, hm⟩ := itemsMeaning_origin hl h
    cases i with
    | «alias» n t => cases hm
    | enum e =>
      simp only [Item.meaning, EnumItem.meaning] at hm
      split at hm
      · split at hm
        · simp at hm
        · cases hm
      · cases hm
    | struct s =>
      simp only [Item.meaning, StructItem.meaning] at hm
      split at hm
      · simp at hm
      · cases hm
    | union u =>
      obtain ⟨-, ⟨hder, vars, h1, h⟩ | ⟨hder, ix, vars, hix, h1, -, -, -, h⟩ |
        ⟨hder, un, vars, cond, dt, hun, h1, hcond, hfit, hhead, -, hne, hdt, h⟩⟩ := union_meaning_ok hm
      · cases h
      · cases h
      · cases h
        rcases cond_cases hne hfit with rfl | rfl | ⟨e, c, he, rfl⟩
        · cases hdt
          exact .u32
        · cases hdt
          exact .bool
        · cases hdt
          obtain ⟨d, h2, h3⟩ := defs_lookup hd (find_enum he)
          have hn : e.name = c := by simpa using List.find?_some he
          simp only [Item.name, hn] at h3
          simp only [Item.meaning, EnumItem.meaning] at h2
          split at h2
          · split at h2
            · simp only [Option.map_eq_some_iff] at h2
              obtain ⟨ix, -, rfl⟩ := h2
              exact .indexer h3
            · cases h2
              exact .enum h3
          · cases h2
  · simp [variableArrayDef] at h

/-- What a type always reads is inside it, given that boxed members do not. -/
theorem refers_holds (hd : file.defs = some defs) (hva : Xdr.program defs variableArrayName = some variableArrayDef)
    (hbox : ∀ s, .struct s ∈ file.types → ∀ f ∈ s.fields, ∀ i ∈ f.2.2.bares, i ∈ f.2.2.inline)
    {x y : String} (h : Refers (Xdr.program defs) x y) :
    Leaf defs y ∨ ∃ a b, a.str = x ∧ b.str = y ∧ file.Holds a b := by
  obtain ⟨d, h1, h2⟩ := h
  have hva : Leaf defs variableArrayName := by
    intro d h
    rw [hva] at h
    cases h
    simp [variableArrayDef, Def.bare, baresOf, Ty.bare]
  rcases program_origin hd h1 with ⟨-, rfl⟩ | ⟨i, hi, hn, hm⟩
  · simp [variableArrayDef, Def.bare, baresOf, Ty.bare] at h2
  · cases i with
    | «alias» n t => cases hm
    | enum e =>
      rw [enum_bare hm] at h2
      cases h2
    | struct s =>
      simp only [Item.meaning, StructItem.meaning] at hm
      split at hm
      · simp only [Option.map_eq_some_iff] at hm
        obtain ⟨fs, h3, rfl⟩ := hm
        obtain ⟨t, ht, hy⟩ := baresOf_mem h2
        obtain ⟨p, hp1, rfl⟩ := List.mem_map.1 ht
        obtain ⟨f, hf, -, -, h4⟩ := forall₂_mem_right (fieldsMeaning_each h3) hp1
        rcases field_bare h4 hy with rfl | ⟨i, hi', rfl⟩
        · exact .inl hva
        · refine .inr ⟨_, i, hn, rfl, .struct s, hi, rfl, ?_⟩
          simp only [Item.inline, List.mem_flatMap]
          exact ⟨f, hf, hbox s hi f hf i hi'⟩
      · cases hm
    | union u =>
      obtain ⟨-, ⟨hder, vars, h1, rfl⟩ | ⟨hder, ix, vars, hix, h1, -, -, -, rfl⟩ |
        ⟨hder, un, vars, cond, dt, hun, h1, hcond, hfit, hhead, -, hne, hdt, rfl⟩⟩ := union_meaning_ok hm
      · cases h2
      · cases h2
      · rcases cond_cases hne hfit with rfl | rfl | ⟨e, c, he, rfl⟩
        · cases hdt
          simp [Def.bare, Ty.bare] at h2
        · cases hdt
          simp [Def.bare, Ty.bare] at h2
        · cases hdt
          simp only [Def.bare, Ty.bare, List.mem_singleton] at h2
          have hn : e.name = c := by simpa using List.find?_some he
          rw [h2, ← hn]
          exact .inl (enum_leaf hd (find_enum he))

theorem inline_paths {t : RTy} {i : RIdent} (h : i ∈ t.inline) : i ∈ t.paths := by
  induction t with
  | array t len c ih => exact ih h
  | option t ih => exact ih h
  | path j => exact h
  | _ => cases h

theorem holds_names (hd : file.defs = some defs) {a b : RIdent} (h : file.Holds a b) :
    a ∈ file.types.map Item.name ∧ b ∈ file.types.map Item.name := by
  obtain ⟨i, hi, rfl, hb⟩ := h
  refine ⟨List.mem_map_of_mem hi, (namesOk_iff.1 (defs_ok hd).1).2.2.1 i hi b ?_⟩
  cases i with
  | «alias» n t => exact inline_paths hb
  | enum e => cases hb
  | struct s =>
    simp only [Item.inline, Item.paths, List.mem_flatMap] at hb ⊢
    obtain ⟨f, hf, hb⟩ := hb
    exact ⟨f, hf, inline_paths hb⟩
  | union u =>
    simp only [Item.inline, Item.paths, List.mem_flatMap] at hb ⊢
    obtain ⟨v, hv, t, ht, hb⟩ := hb
    exact ⟨v, hv, t, ht, inline_paths hb⟩

theorem names_apart (hd : file.defs = some defs) {a b : RIdent} (ha : a ∈ file.types.map Item.name)
    (hb : b ∈ file.types.map Item.name) (h : a.str = b.str) : a = b := by
  obtain ⟨i, hi, rfl⟩ := List.mem_map.1 ha
  obtain ⟨j, hj, rfl⟩ := List.mem_map.1 hb
  have := List.inj_on_of_nodup_map (namesOk_iff.1 (defs_ok hd).1).1 hi hj h
  rw [this]

theorem guarded (hd : file.defs = some defs) (hva : Xdr.program defs variableArrayName = some variableArrayDef)
    (hsz : file.Sized)
    (hbox : ∀ s, .struct s ∈ file.types → ∀ f ∈ s.fields, ∀ i ∈ f.2.2.bares, i ∈ f.2.2.inline) (x : String) :
    ¬ Relation.TransGen (Refers (Xdr.program defs)) x x := by
  have key : ∀ y, Relation.TransGen (Refers (Xdr.program defs)) x y →
      Leaf defs y ∨ ∃ a b, a.str = x ∧ b.str = y ∧ a ∈ file.types.map Item.name ∧ b ∈ file.types.map Item.name ∧
        Relation.TransGen file.Holds a b := by
    intro y h
    induction h with
    | single h =>
      rcases refers_holds hd hva hbox h with h | ⟨a, b, h1, h2, h⟩
      · exact .inl h
      · exact .inr ⟨a, b, h1, h2, (holds_names hd h).1, (holds_names hd h).2, .single h⟩
    | tail _ h ih =>
      rcases ih with hl | ⟨a, b, h1, h2, h3, h4, h5⟩
      · obtain ⟨d, h1, h2⟩ := h
        rw [hl d h1] at h2
        cases h2
      · rcases refers_holds hd hva hbox h with h | ⟨b', c, h6, h7, h⟩
        · exact .inl h
        · obtain ⟨h8, h9⟩ := holds_names hd h
          cases names_apart hd h4 h8 (h2.trans h6.symm)
          exact .inr ⟨a, c, h1, h7, h3, h9, h5.tail h⟩
  intro h
  rcases key x h with hl | ⟨a, b, h1, h2, h3, h4, h5⟩
  · obtain ⟨y, ⟨d, h1, h2⟩, -⟩ := Relation.TransGen.head'_iff.1 h
    rw [hl d h1] at h2
    cases h2
  · cases names_apart hd h3 h4 (h1.trans h2.symm)
    exact hsz a h5

end

/-- Boxed members of generated structures. -/
theorem gen_boxes {ds : List Definition} {cfg : Config} {n : Nat} (hrt : cfg.remove_typedef = true)
    {file : RustFile} (hg : gen_code n ds cfg = .ok file) (hns : NoSelfMembers ds) :
    ∀ s, .struct s ∈ file.types → ∀ f ∈ s.fields, ∀ i ∈ f.2.2.bares, i ∈ f.2.2.inline := by
  intro s hi f hf i hb
  rcases item_origin hrt hg hi with ⟨nm, as, e, hin, h, he⟩ | ⟨nm, ms, s', hin, h, hc⟩ | ⟨nm, b, u, hin, h, hc⟩
  · cases h
  · cases h
    obtain ⟨d', hd', h1⟩ := forall₂_mem_right (convert_struct_ok hc).2 hf
    obtain ⟨_, ts, ty, op, -, hts, hty, -, h2, -⟩ := convertField_ok h1
    have hdt := decl_sound hty
    rw [h2] at hb ⊢
    split at hb
    · next hname =>
      exfalso
      have hts' : ts = .identifier nm := by
        unfold TypeSpecifier.isName at hname
        split at hname
        · rw [beq_iff_eq.1 hname]
        · cases hname
      subst hts'
      simp only [RTy.bares] at hb
      have := hns nm ms hin d' hd'
      cases hdt with
      | «variable» h =>
        cases hts
        exact (this _ (.constant (.decimal []))).1 rfl
      | fixedArray h hl =>
        cases hts
        exact (this _ _).2 rfl
      | opaqueFixed h => simp [RTy.bares] at hb
      | _ => cases hb
    · next hname =>
      rw [if_neg hname]
      exact bares_inline (DeclType.unboxed hdt) hb
  · cases h

end Xdr.Rpcgen
