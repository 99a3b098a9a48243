import Verif.Proofs.Bounded
import Verif.Spec.RustRecursive
import Verif.RpcgenProofs.Elements
/-!
# Generated types that do not contain themselves
-/

namespace Xdr.Rpcgen

/-- A name in the source of a type is one of the names in the type. -/
theorem reaches_leaf {t u : Ty} (ht : t.parts (fun _ => none) = []) (h : Xdr.Reaches (fun _ => none) t u) : u = t := by
  rcases Relation.ReflTransGen.cases_head h with rfl | ⟨w, hw, -⟩
  · rfl
  · rw [ht] at hw
    cases hw

theorem reaches_one {t w : Ty} (ht : t.parts (fun _ => none) = [w]) {y : String} (hne : t ≠ .named y)
    (h : Xdr.Reaches (fun _ => none) t (.named y)) : Xdr.Reaches (fun _ => none) w (.named y) := by
  rcases Relation.ReflTransGen.cases_head h with h | ⟨w', hw, h⟩
  · exact absurd h hne
  · rw [ht, List.mem_singleton] at hw
    rwa [hw] at h

theorem meaning_names {cs : List ConstItem} {rty : RTy} {t : Ty} (h : rty.meaning cs = some t) {y : String}
    (hy : Xdr.Reaches (fun _ => none) t (.named y)) : y = variableArrayName ∨ ∃ p ∈ rty.paths, p.str = y := by
  induction rty generalizing t with
  | array ty len c ih =>
    simp only [RTy.meaning, Option.bind_eq_some_iff] at h
    obtain ⟨t', h1, h2⟩ := h
    obtain ⟨k, hk, -, rfl⟩ := arrayTy_some h2
    exact ih h1 (reaches_one rfl (by simp) hy)
  | vec ty ih =>
    simp only [RTy.meaning, Option.map_eq_some_iff] at h
    obtain ⟨t', h1, rfl⟩ := h
    exact ih h1 (reaches_one rfl (by simp) hy)
  | option ty ih =>
    simp only [RTy.meaning, Option.map_eq_some_iff] at h
    obtain ⟨t', h1, rfl⟩ := h
    exact ih h1 (reaches_one rfl (by simp) hy)
  | box ty ih => exact ih h hy
  | variableArray =>
    cases h
    cases reaches_leaf rfl hy
    exact .inl rfl
  | path i =>
    cases h
    cases reaches_leaf rfl hy
    exact .inr ⟨i, by simp [RTy.paths], rfl⟩
  | _ =>
    cases h
    cases reaches_leaf rfl hy

theorem field_names {cs : List ConstItem} {enums : List EnumItem} {a : Attr} {rty : RTy} {t : Ty}
    (h : fieldMeaning cs enums a rty = some t) {y : String}
    (hy : Xdr.Reaches (fun _ => none) t (.named y)) : y = variableArrayName ∨ ∃ p ∈ rty.paths, p.str = y := by
  unfold fieldMeaning at h
  split at h
  · exact meaning_names h hy
  · obtain ⟨k, hk, -, rfl⟩ := arrayTy_some h
    cases reaches_leaf rfl hy
  · cases h
    cases reaches_leaf rfl hy
  · split at h
    · split at h
      · cases h
        cases reaches_leaf rfl hy
      · cases h
    · cases h
  · cases h

section
variable {file : RustFile} {defs : List (String × Def)}

/-- A type whose definition mentions none. -/
def Mute (defs : List (String × Def)) (x : String) : Prop := ∀ y, ¬ Xdr.Mentions (Xdr.program defs) x y

theorem mute_enum (hd : file.defs = some defs) {e : EnumItem} (he : .enum e ∈ file.types) : Mute defs e.name.str := by
  obtain ⟨d, h2, h3⟩ := defs_lookup hd he
  rintro y ⟨d', hd', t, ht, -⟩
  simp only [Item.name] at h3
  cases h3.symm.trans hd'
  simp only [Item.meaning, EnumItem.meaning] at h2
  split at h2
  · split at h2
    · simp only [Option.map_eq_some_iff] at h2
      obtain ⟨ix, -, rfl⟩ := h2
      simp only [Def.types, List.mem_flatMap, List.mem_map] at ht
      obtain ⟨_, ⟨v, -, rfl⟩, ht⟩ := ht
      cases ht
    · cases h2
      simp only [Def.types, List.mem_flatMap, List.mem_map] at ht
      obtain ⟨_, ⟨v, -, rfl⟩, ht⟩ := ht
      cases ht
  · cases h2

theorem mute_variableArray (hva : Xdr.program defs variableArrayName = some variableArrayDef) :
    Mute defs variableArrayName := by
  rintro y ⟨d', hd', t, ht, hy⟩
  cases hva.symm.trans hd'
  simp only [variableArrayDef, Def.types, List.map_cons, List.map_nil, List.mem_singleton] at ht
  subst ht
  cases reaches_leaf rfl hy

theorem mentions_file (hd : file.defs = some defs) (hva : Xdr.program defs variableArrayName = some variableArrayDef)
    {x y : String} (h : Xdr.Mentions (Xdr.program defs) x y) :
    Mute defs y ∨ ∃ a b, a.str = x ∧ b.str = y ∧ file.Mentions a b := by
  obtain ⟨d, hx, t, ht, hy⟩ := h
  have done : ∀ {i : Item}, i ∈ file.types → i.name.str = x →
      (y = variableArrayName ∨ ∃ p ∈ i.paths, p.str = y) →
      Mute defs y ∨ ∃ a b, a.str = x ∧ b.str = y ∧ file.Mentions a b := by
    rintro i hi hn (rfl | ⟨p, hp, rfl⟩)
    · exact .inl (mute_variableArray hva)
    · exact .inr ⟨_, p, hn, rfl, i, hi, rfl, hp⟩
  rcases program_origin hd hx with ⟨rfl, rfl⟩ | ⟨i, hi, hn, hm⟩
  · exact absurd ⟨_, hx, t, ht, hy⟩ (mute_variableArray hva y)
  · cases i with
    | «alias» n t => cases hm
    | enum e =>
      subst hn
      exact absurd ⟨_, hx, t, ht, hy⟩ (mute_enum hd hi y)
    | struct s =>
      refine done hi hn ?_
      simp only [Item.meaning, StructItem.meaning] at hm
      split at hm
      · simp only [Option.map_eq_some_iff] at hm
        obtain ⟨fs, h1, rfl⟩ := hm
        simp only [Def.types, List.mem_map] at ht
        obtain ⟨p, hp1, rfl⟩ := ht
        obtain ⟨f, hfm, -, -, h2⟩ := forall₂_mem_right (fieldsMeaning_each h1) hp1
        rcases field_names h2 hy with h | ⟨q, hq, h⟩
        · exact .inl h
        · refine .inr ⟨q, ?_, h⟩
          simp only [Item.paths, List.mem_flatMap]
          exact ⟨f, hfm, hq⟩
      · cases hm
    | union u =>
      have field : ∀ v ∈ u.variants, ∀ r ∈ v.fields, (y = variableArrayName ∨ ∃ p ∈ r.paths, p.str = y) →
          Mute defs y ∨ ∃ a b, a.str = x ∧ b.str = y ∧ file.Mentions a b := by
        intro v hv r hr h
        refine done hi hn (h.imp id ?_)
        rintro ⟨q, hq, h⟩
        refine ⟨q, ?_, h⟩
        simp only [Item.paths, List.mem_flatMap]
        exact ⟨v, hv, r, hr, hq⟩
      obtain ⟨-, ⟨hder, vars, h1, rfl⟩ | ⟨hder, ix, vars, hix, h1, -, -, -, rfl⟩ |
        ⟨hder, un, vars, cond, dt, hun, h1, hcond, hfit, hhead, -, hne', hdt, rfl⟩⟩ := union_meaning_ok hm
      · simp only [Def.types, List.mem_flatMap] at ht
        obtain ⟨w, hw, ht⟩ := ht
        obtain ⟨v, hv, i, -, -, -, hsh⟩ := forall₂_mem_right (variantsMeaning_ok h1) hw
        unfold Variant.shape at hsh
        split at hsh
        · simp only [Option.some.injEq] at hsh
          rw [← hsh] at ht
          cases ht
        · next r hr =>
          simp only [Option.map_eq_some_iff] at hsh
          obtain ⟨t', h2, h3⟩ := hsh
          rw [← h3] at ht
          simp only [Shape.types, List.mem_singleton] at ht
          subst ht
          exact field v hv r (by rw [hr]; exact List.mem_cons_self) (field_names h2 hy)
        · cases hsh
      · simp only [Def.types, List.mem_flatMap] at ht
        obtain ⟨w, hw, ht⟩ := ht
        obtain ⟨v, hv, r, hr, h2⟩ := variants_Elems h1 hw ht
        exact field v hv r hr (meaning_names h2 hy)
      · simp only [Def.types, List.mem_cons, List.mem_flatMap] at ht
        rcases ht with rfl | ⟨w, hw, ht⟩
        · rcases cond_cases hne' hfit with rfl | rfl | ⟨e, c, he, rfl⟩
          · cases hdt
            cases reaches_leaf rfl hy
          · cases hdt
            cases reaches_leaf rfl hy
          · cases hdt
            cases reaches_leaf rfl hy
            have hn' : e.name = c := by simpa using List.find?_some he
            rw [← hn']
            exact .inl (mute_enum hd (find_enum he))
        · obtain ⟨v, hv, r, hr, h2⟩ := variants_Elems h1 hw ht
          exact field v hv r hr (meaning_names h2 hy)

theorem mentions_names (hd : file.defs = some defs) {a b : RIdent} (h : file.Mentions a b) :
    a ∈ file.types.map Item.name ∧ b ∈ file.types.map Item.name := by
  obtain ⟨i, hi, rfl, hb⟩ := h
  exact ⟨List.mem_map_of_mem hi, (namesOk_iff.1 (defs_ok hd).1).2.2.1 i hi b hb⟩

theorem notRecursive_program (hd : file.defs = some defs)
    (hva : Xdr.program defs variableArrayName = some variableArrayDef) (h : file.NotRecursive) :
    Xdr.NotRecursive (Xdr.program defs) := by
  intro x hxx
  have key : ∀ y, Relation.TransGen (Xdr.Mentions (Xdr.program defs)) x y →
      Mute defs y ∨ ∃ a b, a.str = x ∧ b.str = y ∧ a ∈ file.types.map Item.name ∧ b ∈ file.types.map Item.name ∧
        Relation.TransGen file.Mentions a b := by
    intro y h
    induction h with
    | single h =>
      rcases mentions_file hd hva h with h | ⟨a, b, h1, h2, h⟩
      · exact .inl h
      · exact .inr ⟨a, b, h1, h2, (mentions_names hd h).1, (mentions_names hd h).2, .single h⟩
    | tail _ h ih =>
      rcases ih with hl | ⟨a, b, h1, h2, h3, h4, h5⟩
      · exact absurd h (hl _)
      · rcases mentions_file hd hva h with h | ⟨b', c, h6, h7, h⟩
        · exact .inl h
        · obtain ⟨h8, h9⟩ := mentions_names hd h
          cases names_apart hd h4 h8 (h2.trans h6.symm)
          exact .inr ⟨a, c, h1, h7, h3, h9, h5.tail h⟩
  rcases key x hxx with hl | ⟨a, b, h1, h2, h3, h4, h5⟩
  · obtain ⟨y, hy, -⟩ := Relation.TransGen.head'_iff.1 hxx
    exact hl y hy
  · cases names_apart hd h3 h4 (h1.trans h2.symm)
    exact h a h5

end

end Xdr.Rpcgen
