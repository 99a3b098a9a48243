import Verif.Spec.RustDefault
import Verif.RpcgenProofs.TextDefs
import Verif.RpcgenProofs.Default
/-!
# `Default::default()` in the text of a generated file
-/

namespace Xdr.Rpcgen

theorem eachDefault_eq {α : Type} (f : α → Res Val) (l : List α) : eachDefault f l = resMapM f l := by
  induction l with
  | nil => rfl
  | cons a l ih => rw [eachDefault, resMapM, ih]

theorem resMapM_map {α β γ : Type} (f : β → Res γ) (m : α → β) (l : List α) :
    resMapM f (l.map m) = resMapM (fun a => f (m a)) l := by
  induction l with
  | nil => rfl
  | cons a l ih => rw [List.map_cons, resMapM, resMapM, ih]

theorem resMapM_congr {α β : Type} {f g : α → Res β} {l : List α} (h : ∀ a ∈ l, f a = g a) :
    resMapM f l = resMapM g l := by
  induction l with
  | nil => rfl
  | cons a l ih => rw [resMapM, resMapM, h a (by simp), ih fun b hb => h b (by simp [hb])]

theorem zeroOf_own {i : RIdent} (h : OwnName i) : zeroOf i.name = none := by
  obtain ⟨h1, h2⟩ := h
  unfold zeroOf
  rw [List.lookup_eq_none_iff]
  intro p hp
  rw [bne_iff_ne]
  intro he
  rw [he] at h1 h2
  simp only [List.mem_cons, List.not_mem_nil, or_false] at hp
  rcases hp with rfl | rfl | rfl | rfl | rfl | rfl | rfl | rfl | rfl | rfl | rfl | rfl
  all_goals first
    | exact absurd (h2 _ rfl) (by decide)
    | exact h1 (by decide)

theorem typeDefault_ast {f : RustFile} (hs : f.Scoped) (item : RIdent → Res Val) {t : RTy}
    (hp : ∀ p ∈ t.paths, OwnName p) :
    ∀ {r : Ty}, t.meaning f.constants = some r →
      typeDefault f.ast item t.ast = t.defaultWith f.constants item := by
  induction t with
  | path i =>
    intro r _
    rw [RTy.ast, tyNamed, typeDefault, zeroOf_own (hp i (by simp [RTy.paths]))]
    split <;> rfl
  | array t len b ih =>
    intro r h
    simp only [RTy.meaning, Option.bind_eq_some_iff] at h
    obtain ⟨r', h1, h2⟩ := h
    obtain ⟨k, hk, hle, -⟩ := arrayTy_some h2
    rw [RTy.ast, typeDefault, ih hp h1, lengthOf_ast hs hk, RTy.defaultWith, hk]
    cases k with
    | zero => rfl
    | succ k =>
      show (if k + 1 ≤ 32 then _ else _) = _
      rw [if_pos hle]
  | vec t ih => intros; rfl
  | option t ih =>
    intro r h
    rw [RTy.ast, tyPath, typeDefault, if_neg (by decide), if_pos (by rfl)]
    rfl
  | box t ih =>
    intro r h
    rw [RTy.ast, tyPath, typeDefault, if_neg (by decide), if_neg (by decide), if_pos (by rfl)]
    exact ih hp h
  | _ => intros; rfl

theorem fieldDefault_ast {f : RustFile} (hs : f.Scoped) (item : RIdent → Res Val) {a : Attr} {t : RTy}
    (hp : ∀ p ∈ t.paths, OwnName p) {r : Ty} (h : fieldMeaning f.constants f.enums a t = some r) :
    fieldDefaultOf f.ast item a.ast t.ast = fieldDefault f.constants item a t := by
  unfold fieldMeaning at h
  split at h
  · unfold fieldDefaultOf
    rw [if_neg (by decide), typeDefault_ast hs item hp h]
    rfl
  · obtain ⟨k, hk, hle, -⟩ := arrayTy_some h
    unfold fieldDefaultOf
    rw [if_pos (by decide)]
    simp only [RTy.ast]
    rw [lengthOf_ast hs hk, fieldDefault, hk]
    dsimp only
    rw [if_pos hle]
  · rfl
  · rename_i i
    unfold fieldDefaultOf
    rw [if_neg (by decide), typeDefault_ast hs item hp (r := .named i.str) rfl]
    rfl
  · cases h

/-- A name of no type of the file. -/
theorem find_absent {f : RustFile} {name : RIdent} (hi : ∀ i ∈ f.types, i.name ≠ name) {β : Type}
    {p : RItem → Option β} (hp : ∀ x, (p x).isSome = true → OfType name x) : f.ast.findSome? p = none := by
  rw [List.findSome?_eq_none_iff]
  intro x hx
  by_contra hc
  have h1 := hp x (Option.ne_none_iff_isSome.1 hc)
  rw [ast_eq, List.mem_append, List.mem_append] at hx
  rcases hx with hx | hx | hx
  · obtain ⟨ps, rfl⟩ := uses_use hx
    exact h1
  · obtain ⟨c, -, rfl⟩ := List.mem_map.1 hx
    exact h1
  · obtain ⟨j, hj, hx⟩ := List.mem_flatMap.1 hx
    have h2 := item_ofType j x hx
    have hne := hi j hj
    cases x with
    | «alias» _ n _ => exact hne (h2.symm.trans h1)
    | enum _ _ n _ => exact hne (h2.symm.trans h1)
    | struct _ _ n _ => exact hne (h2.symm.trans h1)
    | impl _ t _ =>
      have h3 : tyNamed j.name = tyNamed name := h2.symm.trans h1
      simp only [tyNamed, RType.path.injEq, RPath.mk.injEq, List.cons.injEq, and_true, true_and] at h3
      exact hne h3
    | use _ => exact h2
    | const _ _ _ _ => exact h2

theorem enum_ofType (name : RIdent) (x : RItem) (hx : (match x with
    | .enum _ _ n vs => if n = name then some vs else none
    | _ => none : Option (List RVariant)).isSome = true) : OfType name x := by
  cases x <;> dsimp only at hx
  all_goals first
    | (simp at hx; done)
    | (split at hx
       · assumption
       · simp at hx)

theorem struct_ofType (name : RIdent) (x : RItem) (hx : (match x with
    | .struct attrs _ n fs => if n = name then some (attrs, fs) else none
    | _ => none : Option (List RAttr × List RField)).isSome = true) : OfType name x := by
  cases x <;> dsimp only at hx
  all_goals first
    | (simp at hx; done)
    | (split at hx
       · assumption
       · simp at hx)

theorem findStruct_type {f : RustFile} (hnd : (f.types.map (·.name.str)).Nodup) {i : Item} (hi : i ∈ f.types) :
    findStruct f.ast i.name = findStruct i.ast i.name :=
  find_type hnd hi (struct_ofType i.name)

theorem findDefault_hit (e : RExpr) :
    findDefault [.fn (nameOf c!"default") [] (tyPath [c!"Self"]) e] = some e := rfl

/-- The variant a path names is the one with the name. -/
theorem variantAt_map {α : Type} (name : RIdent) (m : α → RVariant) (vs : List α) (i : RIdent) :
    variantAt name (vs.map m) ⟨false, [name, i]⟩ =
      (vs.findIdx? fun v => decide ((m v).name = i)).bind fun k => vs[k]?.map fun v => (k, m v) := by
  unfold variantAt
  rw [List.findIdx?_map]
  have : (fun v => decide ((⟨false, [name, i]⟩ : RPath) = ⟨false, [name, (m v).name]⟩)) =
      fun v => decide ((m v).name = i) := by
    funext v
    simp [eq_comm]
  show ((vs.findIdx? fun v => _).bind _) = _
  simp only [Function.comp_def]
  rw [this]
  cases vs.findIdx? fun v => decide ((m v).name = i) with
  | none => rfl
  | some k =>
    simp only [Option.bind_some, List.getElem?_map, Option.map_map]
    rfl

theorem enum_default_ast {f : RustFile} (hnd : (f.types.map (·.name.str)).Nodup) {e : EnumItem} (he : .enum e ∈ f.types)
    (n : Nat) : defaultOf f.ast (n + 1) e.name = e.defaultVal := by
  have h1 : findStruct f.ast e.name = none := by
    have := findStruct_type hnd he
    rw [show (Item.enum e).name = e.name from rfl] at this
    rw [this]
    unfold findStruct
    rw [List.findSome?_eq_none_iff]
    intro x hx
    simp only [Item.ast, EnumItem.ast, List.mem_append, List.mem_cons, List.not_mem_nil, or_false, Option.mem_toList,
      Option.map_eq_some_iff] at hx
    rcases hx with (((rfl | rfl) | ⟨_, _, rfl⟩) | ⟨_, _, rfl⟩) | ⟨_, _, rfl⟩ <;> rfl
  have h2 : findImpl f.ast (tyPath [c!"Default"]) (tyNamed e.name) =
      some [.fn (nameOf c!"default") [] (tyPath [c!"Self"]) (.operand (.path ⟨false, [e.name, e.default]⟩))] := by
    have := findImpl_type hnd he (tyPath [c!"Default"])
    rw [show (Item.enum e).name = e.name from rfl] at this
    rw [this, Item.ast, EnumItem.ast]
    simp only [List.cons_append, List.nil_append]
    rw [findImpl_enum, implDefaultAst, findImpl_hit]
  rw [defaultOf, h1, findEnum_enum hnd he, h2]
  dsimp only [Option.bind_some]
  rw [findDefault_hit]
  dsimp only
  rw [enumDefault, enumVariants, variantAt_map]
  unfold EnumItem.defaultVal variantPos
  dsimp only
  cases hf : e.variants.findIdx? fun v => decide (v.1 = e.default) with
  | none => rfl
  | some k =>
    obtain ⟨hk, -⟩ := List.findIdx?_eq_some_iff_getElem.1 hf
    simp only [Option.bind_some, List.getElem?_eq_getElem hk, Option.map_some]
    rfl

theorem struct_default_ast {f : RustFile} (hs : f.Scoped) (hnd : (f.types.map (·.name.str)).Nodup) {s : StructItem}
    (hi : .struct s ∈ f.types) (hp : ∀ fl ∈ s.fields, ∀ p ∈ fl.2.2.paths, OwnName p) {d : Def}
    (hd : s.meaning f.constants f.enums = some d) (n : Nat) :
    defaultOf f.ast (n + 1) s.name = s.defaultVal f.constants (defaultOf f.ast n) := by
  have h1 : findStruct f.ast s.name = some ([.derive (structDerives.map nameOf)],
      s.fields.map fun f => ⟨f.1.ast, true, f.2.1, f.2.2.ast⟩) := by
    have := findStruct_type hnd hi
    rw [show (Item.struct s).name = s.name from rfl] at this
    rw [this]
    simp [findStruct, Item.ast, StructItem.ast]
  unfold StructItem.meaning at hd
  split at hd
  · simp only [Option.map_eq_some_iff] at hd
    obtain ⟨fs, hfs, rfl⟩ := hd
    rw [defaultOf, h1]
    dsimp only
    rw [if_pos (by decide), eachDefault_eq, resMapM_map]
    unfold StructItem.defaultVal
    rw [resMapM_congr (g := fun fl => fieldDefault f.constants (defaultOf f.ast n) fl.1 fl.2.2)]
    intro fl hfl
    have h := fieldsMeaning_each hfs
    obtain ⟨p, -, hpm⟩ := forall₂_mem_left h hfl
    exact fieldDefault_ast hs _ (hp fl hfl) hpm.2.2
  · cases hd

/-- The fields of a variant have a meaning each. -/
theorem variant_fields {f : RustFile} {u : UnionItem} {d : Def} (hd : u.meaning f.constants f.enums = some d)
    {v : Variant} (hv : v ∈ u.variants) {t : RTy} (ht : t ∈ v.fields) :
    ∃ r, fieldMeaning f.constants f.enums v.attr t = some r := by
  have types : ∀ {vars}, variantsMeaning (·.types f.constants) u.variants = some vars →
      ∃ r, fieldMeaning f.constants f.enums v.attr t = some r := by
    intro vars h2
    obtain ⟨p, -, i, -, -, -, hsh⟩ := forall₂_mem_left (variantsMeaning_ok h2) hv
    unfold Variant.types at hsh
    split at hsh
    · rename_i ha
      split at hsh
      · rename_i hf
        rw [hf] at ht
        cases ht
      · simp only [Option.map_eq_some_iff] at hsh
        obtain ⟨tys, hty, -⟩ := hsh
        obtain ⟨r, -, hr⟩ := forall₂_mem_left (tysMeaning_ok hty) ht
        rw [ha]
        exact ⟨r, hr⟩
    · cases hsh
  obtain ⟨-, ⟨-, vars, h2, -⟩ | ⟨-, ix, vars, -, h2, -⟩ | ⟨-, un, vars, cond, dt, -, h2, -⟩⟩ := union_meaning_ok hd
  · obtain ⟨p, -, i, -, -, -, hsh⟩ := forall₂_mem_left (variantsMeaning_ok h2) hv
    unfold Variant.shape at hsh
    split at hsh
    · rename_i hf
      rw [hf] at ht
      cases ht
    · rename_i t' hf
      rw [hf, List.mem_singleton] at ht
      subst ht
      simp only [Option.map_eq_some_iff] at hsh
      obtain ⟨ty, hty, -⟩ := hsh
      exact ⟨ty, hty⟩
    · cases hsh
  · exact types h2
  · exact types h2

theorem default_calls_all (n : Nat) :
    (List.replicate n (RExpr.call (wordsPath false [c!"Default", c!"default"]) [])).all isDefaultCall = true := by
  rw [List.all_eq_true]
  intro x hx
  rw [List.eq_of_mem_replicate hx]
  decide

theorem union_default_ast {f : RustFile} (hs : f.Scoped) (hnd : (f.types.map (·.name.str)).Nodup) {u : UnionItem}
    (hi : .union u ∈ f.types) (hu : u.Use) (hp : ∀ v ∈ u.variants, ∀ t ∈ v.fields, ∀ p ∈ t.paths, OwnName p) {d : Def}
    (hd : u.meaning f.constants f.enums = some d) (n : Nat) :
    defaultOf f.ast (n + 1) u.name = u.defaultVal f.constants (defaultOf f.ast n) := by
  have h1 : findStruct f.ast u.name = none := by
    have := findStruct_type hnd hi
    rw [show (Item.union u).name = u.name from rfl] at this
    rw [this]
    unfold findStruct
    rw [List.findSome?_eq_none_iff]
    intro x hx
    simp only [Item.ast, UnionItem.ast, List.mem_append, List.mem_cons, List.not_mem_nil, or_false, Option.mem_toList,
      Option.map_eq_some_iff, Option.bind_eq_some_iff] at hx
    rcases hx with ((rfl | rfl) | ⟨_, _, rfl⟩) | ⟨_, _, _, _, rfl⟩ <;> rfl
  have h2 : findImpl f.ast (tyPath [c!"Default"]) (tyNamed u.name) =
      some [.fn (nameOf c!"default") [] (tyPath [c!"Self"]) (unionDefaultAst u.name u.default)] := by
    have := findImpl_type hnd hi (tyPath [c!"Default"])
    rw [show (Item.union u).name = u.name from rfl] at this
    rw [this, Item.ast, UnionItem.ast]
    simp only [List.cons_append, List.nil_append]
    rw [findImpl_enum, implDefaultAst, findImpl_hit]
  have h3 : findEnum f.ast u.name = some (u.variants.map Variant.ast) := by
    have := findEnum_type hnd hi
    rw [show (Item.union u).name = u.name from rfl] at this
    rw [this]
    simp [findEnum, Item.ast, UnionItem.ast]
  have hpos : variantAt u.name (u.variants.map Variant.ast) ⟨false, [u.name, u.default.1.id]⟩ =
      (u.variants.findIdx? fun v => decide (v.name = u.default.1)).bind fun k => u.variants[k]?.map fun v => (k, v.ast) := by
    rw [variantAt_map]
    congr 1
    have key : ∀ v ∈ u.variants, decide (v.ast.name = u.default.1.id) = decide (v.name = u.default.1) := by
      intro v hv
      rw [decide_eq_decide]
      show v.name.id = u.default.1.id ↔ _
      constructor
      · intro h
        rw [(isName_id (hu.variants v hv).name).1, (isName_id hu.default).1, h]
      · intro h
        rw [h]
    generalize u.variants = l at key
    induction l with
    | nil => rfl
    | cons a l ih =>
      rw [List.findIdx?_cons, List.findIdx?_cons, key a (by simp), ih fun v hv => key v (by simp [hv])]
  rw [defaultOf, h1, h3, h2]
  dsimp only [Option.bind_some]
  rw [findDefault_hit]
  dsimp only
  unfold unionDefaultAst UnionItem.defaultVal
  cases hf : u.variants.findIdx? fun v => decide (v.name = u.default.1) with
  | none =>
    rw [hf] at hpos
    split
    · rw [enumDefault, hpos]
      rfl
    · rw [enumDefault, hpos]
      rfl
  | some k =>
    obtain ⟨hk, -⟩ := List.findIdx?_eq_some_iff_getElem.1 hf
    rw [hf] at hpos
    simp only [Option.bind_some, List.getElem?_eq_getElem hk, Option.map_some] at hpos
    have hv : u.variants[k] ∈ u.variants := List.getElem_mem hk
    generalize hve : u.variants[k] = v at hpos hv
    dsimp only
    rw [List.getElem?_eq_getElem hk, hve]
    dsimp only
    split
    · rename_i hz
      rw [enumDefault, hpos]
      dsimp only
      rw [variant_arity, hz]
      by_cases hl : v.fields.length = 0
      · rw [if_pos hl, if_pos hl, List.length_eq_zero_iff.1 hl]
        rfl
      · rw [if_neg hl, if_neg hl]
    · rename_i hz
      rw [enumDefault, hpos]
      dsimp only
      cases hvf : v.fields with
      | nil =>
        have : v.ast.fields = none := by simp [Variant.ast, hvf]
        rw [this, if_neg (by simp; omega)]
      | cons t ts =>
        have : v.ast.fields = some (v.fields.map RTy.ast) := by simp [Variant.ast, hvf]
        rw [this, ← hvf]
        dsimp only
        rw [List.length_map, List.length_replicate]
        by_cases hl : v.fields.length = u.default.2
        · rw [if_pos ⟨default_calls_all _, hl.symm⟩, if_pos hl, eachDefault_eq, resMapM_map,
            resMapM_congr (g := fieldDefault f.constants (defaultOf f.ast n) v.attr)]
          intro t' ht'
          obtain ⟨r, hr⟩ := variant_fields hd hv ht'
          exact fieldDefault_ast hs _ (hp v hv t' ht') hr
        · rw [if_neg fun h => hl h.2.symm, if_neg hl]

theorem defaultOf_ast {f : RustFile} (hs : f.Scoped) (hu : f.Use) {defs : List (String × Def)} (hd : f.defs = some defs)
    (n : Nat) : defaultOf f.ast n = f.default n := by
  obtain ⟨hno, -⟩ := defs_ok hd
  obtain ⟨hnd, hus, hpa, -⟩ := namesOk_iff.1 hno
  have hown : ∀ i ∈ f.types, ∀ p ∈ i.paths, OwnName p := by
    intro i hi p hp
    obtain ⟨j, hj, rfl⟩ := List.mem_map.1 (hpa i hi p hp)
    exact ⟨(hus j hj).2, hs.names j hj⟩
  induction n with
  | zero => rfl
  | succ n ih =>
    funext name
    by_cases hn : ∃ i ∈ f.types, i.name = name
    · obtain ⟨i, hi, rfl⟩ := hn
      obtain ⟨d, hd1, -⟩ := defs_lookup hd hi
      rw [file_default_succ hno hi, ← ih]
      cases i with
      | «alias» _ _ => cases hd1
      | enum e => exact enum_default_ast hnd hi n
      | struct s =>
        exact struct_default_ast hs hnd hi (fun fl hfl p hpp => hown _ hi p (List.mem_flatMap.2 ⟨fl, hfl, hpp⟩)) hd1 n
      | union u =>
        exact union_default_ast hs hnd hi (hu.types _ hi) (fun v hv t ht p hpp =>
          hown _ hi p (List.mem_flatMap.2 ⟨v, hv, List.mem_flatMap.2 ⟨t, ht, hpp⟩⟩)) hd1 n
    · have hne : ∀ i ∈ f.types, i.name ≠ name := fun i hi he => hn ⟨i, hi, he⟩
      have h1 : findStruct f.ast name = none := find_absent hne (struct_ofType name)
      have h2 : findEnum f.ast name = none := find_absent hne (enum_ofType name)
      have h3 : f.types.find? (fun t => decide (t.name = name)) = none := by
        rw [List.find?_eq_none]
        intro i hi
        simpa using hne i hi
      rw [defaultOf, h1, h2, RustFile.default, h3]

/-- `Default::default()` of the text of a generated file is that of the file. -/
theorem rustDefault_text {n : Nat} {ds : List Definition} {cfg : Config} {file : RustFile}
    (hcfg : cfg.union_impl_indexer = true → cfg.union_impl_union = false)
    (hg : gen_code n ds cfg = .ok file) {defs : List (String × Def)} (hd : file.defs = some defs) (m : Nat) (i : RIdent) :
    rustDefault file.text m i = file.default m i := by
  have hs := gen_code_Scoped hcfg hg
  have hu := use_of_defs hs hd
  unfold rustDefault
  rw [parse_file hg hu]
  dsimp only
  rw [defaultOf_ast hs hu hd]

end Xdr.Rpcgen
