import Verif.Spec.NoRecursion
import Verif.RpcgenProofs.NotRecursive
/-!
# Interfaces in which no type contains itself have such programs
-/

namespace Xdr.Rpcgen

section
variable {ds : List Definition} {cfg : Config} {n : Nat}

mutual
theorem SpecType.uses : ∀ {ts ty op}, SpecType ds true ts ty op → ∀ i ∈ ty.paths,
    ∃ y, ts = .identifier y ∧ Relation.ReflTransGen (TypeUses ds) (upper_camel_case y) i.text
  | _, _, _, .int | _, _, _, .uint | _, _, _, .hyper | _, _, _, .uhyper | _, _, _, .float
  | _, _, _, .double | _, _, _, .bool | _, _, _, .char | _, _, _, .uchar | _, _, _, .short
  | _, _, _, .ushort => by simp [RTy.paths]
  | _, _, _, .typedef _ ht h => by
    intro i hi
    obtain ⟨y, h1, h2⟩ := DeclType.uses h i hi
    obtain ⟨h3, h4⟩ := typeOf_mem ht
    exact ⟨_, rfl, h2.head ⟨_, _, y, .inl ⟨h3, h4⟩, h1, rfl, rfl⟩⟩
  | _, _, _, .name hd hid => by
    intro i hi
    simp only [RTy.paths, List.mem_singleton] at hi
    subst hi
    exact ⟨_, rfl, by rw [camel_text hid]⟩

theorem DeclType.uses : ∀ {d ty op}, DeclType ds true d ty op → ∀ i ∈ ty.paths,
    ∃ y, d.element = some (.identifier y) ∧ Relation.ReflTransGen (TypeUses ds) (upper_camel_case y) i.text
  | _, _, _, .variable h => by
    intro i hi
    obtain ⟨y, rfl, h2⟩ := SpecType.uses h i hi
    exact ⟨y, rfl, h2⟩
  | _, _, _, .fixedArray h _ => by
    intro i hi
    simp only [RTy.paths] at hi
    obtain ⟨y, rfl, h2⟩ := SpecType.uses h i hi
    exact ⟨y, rfl, h2⟩
  | _, _, _, .variableArray h _ => by
    intro i hi
    simp only [RTy.paths] at hi
    obtain ⟨y, rfl, h2⟩ := SpecType.uses h i hi
    exact ⟨y, rfl, h2⟩
  | _, _, _, .opaqueArray _ => by simp [RTy.paths]
  | _, _, _, .opaqueFixed _ => by simp [RTy.paths]
  | _, _, _, .opaqueVar => by simp [RTy.paths]
  | _, _, _, .string => by simp [RTy.paths]
  | _, _, _, .option h => by
    intro i hi
    simp only [RTy.paths] at hi
    obtain ⟨y, rfl, h2⟩ := SpecType.uses h i hi
    exact ⟨y, rfl, h2⟩
end

theorem decl_uses {x : Str} {d : Declaration} (hx : DeclOf ds x d) {ty : RTy} {op : OpaqueType}
    (h : DeclType ds true d ty op) : ∀ i ∈ ty.paths, Relation.TransGen (TypeUses ds) (upper_camel_case x) i.text := by
  intro i hi
  obtain ⟨y, h1, h2⟩ := DeclType.uses h i hi
  exact Relation.TransGen.head' ⟨x, d, y, hx, h1, rfl, rfl⟩ h2

theorem item_uses (hrt : cfg.remove_typedef = true) {file : RustFile} (hg : gen_code n ds cfg = .ok file) {item : Item}
    (hi : item ∈ file.types) : ∀ i ∈ item.paths, Relation.TransGen (TypeUses ds) item.name.text i.text := by
  have sound : ∀ {d ty op}, convert_type_token (setup_context ds cfg) n d = .ok (some (ty, op)) →
      DeclType ds true d ty op := fun h => hrt ▸ decl_sound h
  rcases item_origin hrt hg hi with ⟨nm, as, e, hin, rfl, he⟩ | ⟨nm, ms, s', hin, rfl, hc⟩ | ⟨nm, b, u, hin, rfl, hc⟩
  · intro i hi
    cases hi
  · obtain ⟨hn, hf⟩ := convert_struct_ok hc
    intro i hi
    simp only [Item.paths, List.mem_flatMap] at hi
    obtain ⟨f, hfm, hi⟩ := hi
    obtain ⟨d', hd', h1⟩ := forall₂_mem_right hf hfm
    obtain ⟨_, ts, ty, op, -, -, hty, -, h2, -⟩ := convertField_ok h1
    simp only [Item.name]
    rw [camel_text hn]
    refine decl_uses (.inr (.inl ⟨ms, hin, hd'⟩)) (sound hty) i ?_
    rw [h2] at hi
    split at hi
    · exact hi
    · exact hi
  · have hn : upper_camel_case_ident nm = .ok u.name := by
      obtain ⟨ct, acc, df, h, -⟩ := convert_union_ok hc
      exact h
    have H : EveryType ds cfg n (fun d => ∃ v, (v, d) ∈ b.labels) (fun d => b.default = some d)
        (fun ts => ∃ nm, b.cond = .variable ts nm)
        (fun ty => ∀ i ∈ ty.paths, Relation.TransGen (TypeUses ds) (upper_camel_case nm) i.text) fun _ => True :=
      { decl := fun d hd ty op h => decl_uses (.inr (.inr ⟨b, hin, .inr hd⟩)) (sound h)
        cond := fun ts ty hs h => by
          obtain ⟨nm', hs⟩ := hs
          have hof : DeclOf ds nm (.variable ts nm') := .inr (.inr ⟨b, hin, .inl hs.symm⟩)
          unfold condType at h
          split at h
          · next p hp =>
            cases h
            have hsp := spec_sound (fun h => decl_sound h) hp
            rw [hrt] at hsp
            exact decl_uses hof (.variable hsp)
          · split at h
            · simp only [GR.bind_eq_ok, GR.ok.injEq] at h
              obtain ⟨j, hj, rfl⟩ := h
              intro i hi
              simp only [RTy.paths, List.mem_singleton] at hi
              subst hi
              rw [camel_text hj]
              exact .single ⟨nm, _, _, hof, rfl, rfl, rfl⟩
            · cases h
          · cases h
          · cases h
        bool := by simp [RTy.paths]
        opaques := fun _ _ _ _ _ _ => ⟨by simp [RTy.paths], trivial⟩
        plain := trivial }
    have key := union_each H (fun l hl => ⟨l.1, hl⟩) (fun ts nm h => ⟨nm, h⟩) (fun d h => h) hc
    intro i hi
    simp only [Item.paths, List.mem_flatMap] at hi
    obtain ⟨v, hv, t, ht, hi⟩ := hi
    simp only [Item.name]
    rw [camel_text hn]
    exact (key v hv).2 t ht i hi

/-- The source printed for an interface in which no type contains itself is such source. -/
theorem notRecursive_gen (hrt : cfg.remove_typedef = true) {file : RustFile} (hg : gen_code n ds cfg = .ok file)
    (h : NoRecursion ds) : file.NotRecursive := by
  intro a ha
  have key : ∀ {a b}, Relation.TransGen file.Mentions a b → Relation.TransGen (TypeUses ds) a.text b.text := by
    intro a b hab
    induction hab with
    | single h1 =>
      obtain ⟨i, hi, rfl, hb⟩ := h1
      exact item_uses hrt hg hi _ hb
    | tail _ h1 ih =>
      obtain ⟨i, hi, rfl, hb⟩ := h1
      exact ih.trans (item_uses hrt hg hi _ hb)
  exact h _ (key ha)

end

end Xdr.Rpcgen
