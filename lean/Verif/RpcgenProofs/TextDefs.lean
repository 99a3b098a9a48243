import Verif.RpcgenProofs.TextTypes
/-!
# Enums, structs, unions and the file
-/

namespace Xdr.Rpcgen

theorem allSome_of {α β : Type} {g : α → Option β} {l : List α} {r : List β}
    (h : List.Forall₂ (fun a b => g a = some b) l r) : allSome g l = some r := by
  induction h with
  | nil => rfl
  | cons h1 _ ih => rw [allSome, h1, Option.bind_some, ih]; rfl

theorem allSome_map {α β γ : Type} {g : β → Option γ} {m : α → β} {l : List α} {r : List γ}
    (h : List.Forall₂ (fun a b => g (m a) = some b) l r) : allSome g (l.map m) = some r :=
  allSome_of (List.forall₂_map_left_iff.2 h)

/-! ## Imports and derives -/

theorem imported_of {f : RustFile} {ps : List (List RIdent)} (h : .use ps ∈ f.uses) {path : List Str}
    (hp : path.map nameOf ∈ ps) : imported f.ast path = true := by
  unfold imported imports
  rw [decide_eq_true_eq, ast_eq, List.flatMap_append]
  exact List.mem_append_left _ (List.mem_flatMap.2 ⟨_, h, hp⟩)

theorem imported_serde (f : RustFile) :
    imported f.ast [c!"serde", c!"Serialize"] = true ∧ imported f.ast [c!"serde", c!"Deserialize"] = true := by
  have : RItem.use [[nameOf c!"serde", nameOf c!"Deserialize"], [nameOf c!"serde", nameOf c!"Serialize"]] ∈ f.uses := by
    simp [RustFile.uses]
  exact ⟨imported_of this (by decide), imported_of this (by decide)⟩

theorem serde_of (f : RustFile) {attrs : List RAttr} (h1 : nameOf c!"Serialize" ∈ derives attrs)
    (h2 : nameOf c!"Deserialize" ∈ derives attrs) : derivesSerde f.ast attrs = true := by
  unfold derivesSerde
  rw [decide_eq_true_eq]
  exact ⟨h1, h2, imported_serde f⟩

theorem not_serde (f : RustFile) {attrs : List RAttr} (h1 : nameOf c!"Serialize" ∉ derives attrs) :
    derivesSerde f.ast attrs = false := by
  unfold derivesSerde
  rw [decide_eq_false_iff_not]
  exact fun h => h1 h.1

theorem not_xdr (f : RustFile) {attrs : List RAttr} {name : Str} (h1 : nameOf name ∉ derives attrs) :
    derivesXdr f.ast attrs name = false := by
  unfold derivesXdr
  rw [decide_eq_false_iff_not]
  exact fun h => h1 h.1

theorem imported_tuple {f : RustFile} (h : f.useTuple = true) :
    imported f.ast [c!"serde", c!"ser", c!"SerializeTuple"] = true :=
  imported_of (ps := [[c!"serde", c!"ser", c!"SerializeTuple"].map nameOf])
    (by simp only [RustFile.uses, h, if_true, List.mem_append]; exact .inl (.inl (.inr (by simp [useAst])))) (by decide)

theorem indexer_of {f : RustFile} (h : f.useIndexer = true ∧ f.useTuple = true) {attrs : List RAttr}
    (h1 : nameOf c!"XdrIndexer" ∈ derives attrs) : derivesXdr f.ast attrs c!"XdrIndexer" = true := by
  unfold derivesXdr
  rw [decide_eq_true_eq]
  refine ⟨h1, ?_, ?_, imported_tuple h.2⟩
  · exact imported_of (ps := [[c!"serde_xdr_derive", c!"XdrIndexer"].map nameOf])
      (by simp only [RustFile.uses, h.1, if_true, List.mem_append]; exact .inl (.inr (by simp [useAst]))) (by decide)
  · exact imported_of (ps := [[c!"serde_xdr", c!"XdrIndexer"].map nameOf])
      (by simp only [RustFile.uses, h.1, if_true, List.mem_append]; exact .inl (.inr (by simp [useAst]))) (by decide)

theorem unions_of {f : RustFile} (h : f.useUnion = true ∧ f.useTuple = true) {attrs : List RAttr}
    (h1 : nameOf c!"XdrUnion" ∈ derives attrs) : derivesXdr f.ast attrs c!"XdrUnion" = true := by
  unfold derivesXdr
  rw [decide_eq_true_eq]
  refine ⟨h1, ?_, ?_, imported_tuple h.2⟩
  · exact imported_of (ps := [[c!"serde_xdr_derive", c!"XdrUnion"].map nameOf])
      (by simp only [RustFile.uses, h.1, if_true, List.mem_append]; exact .inr (by simp [useAst])) (by decide)
  · exact imported_of (ps := [[c!"serde_xdr", c!"XdrUnion"].map nameOf])
      (by simp only [RustFile.uses, h.1, if_true, List.mem_append]; exact .inr (by simp [useAst])) (by decide)

/-! ## Enums -/

theorem name_by_index_value {X : Type} (k : Int32) {arms : List X} {i : X → Int} {t : X → RIdent}
    (last : RExpr) {r : Res String} (hr : last.value.result RVal.str? = r) :
    (bodyValue (nameOf c!"index") (.int c!"i32" k.toInt) (matchWord c!"index"
      (arms.map (fun a => (intPat .i32 (i a), okStringifyAst [identLex (t a)])) ++ [(.wild, last)]))).result RVal.str? =
      match arms.find? fun a => decide (i a = k.toInt) with
      | some a => .ok (t a).str
      | none => r := by
  rw [bodyValue_match, find_arms (q := fun a => decide (i a = k.toInt)) (fun a _ => takes_intPat_iff .i32 (i a) k.toInt)]
  cases arms.find? fun a => decide (i a = k.toInt) with
  | none => exact hr
  | some a =>
    dsimp only [Option.map_some, Option.some_or]
    rw [value_okStringify]
    exact result_ok rfl

theorem result_okStringify (i : RIdent) : (okStringifyAst [identLex i]).value.result RVal.str? = .ok i.str := by
  rw [value_okStringify]
  exact result_ok rfl

theorem enumIndexer_ast {f : RustFile} (hnd : (f.types.map (·.name.str)).Nodup) {e : EnumItem} (he : .enum e ∈ f.types)
    {ix : EnumIndexer} (hix : e.indexer = some ix) :
    indexerImplOf f.ast e.name (enumVariants e.variants) = some (enumIndexerImpl e.variants ix) := by
  have hi : findImpl f.ast (tyPath [c!"XdrIndexer"]) (tyNamed e.name) = some
      [.assoc (nameOf c!"Error") (errorTy true),
       .fn (nameOf c!"name_by_index") [.typed (nameOf c!"index") (tyPath [c!"i32"])] nameResultTy
        (matchWord c!"index" (ix.byIndex.map (fun a => (intPat .i32 a.1, okStringifyAst [identLex a.2])) ++
          [(.wild, okStringifyAst [identLex ix.otherwise])])),
       .fn (nameOf c!"index") [.refSelf] (tyPath [c!"i32"])
        (matchWord c!"self" (ix.index.map fun a => (.path ⟨false, [e.name, a.1]⟩, intExpr a.2)))] := by
    have := findImpl_type hnd he (tyPath [c!"XdrIndexer"])
    rw [show (Item.enum e).name = e.name from rfl] at this
    rw [this, Item.ast, EnumItem.ast, hix]
    have hmiss1 : (RType.app (tyPath [c!"AsRef"]) (tyPath [c!"i32"])) ≠ tyPath [c!"XdrIndexer"] := by decide
    have hmiss2 : (RType.app (tyPath [c!"TryFrom"]) (tyPath [c!"i32"])) ≠ tyPath [c!"XdrIndexer"] := by decide
    cases e.asRef <;> cases e.tryFrom <;>
      simp only [Option.map_some, Option.map_none, Option.toList_some, Option.toList_none, List.cons_append, List.nil_append] <;>
      rw [findImpl_enum, implDefaultAst, findImpl_miss (by decide)]
    · rw [EnumIndexer.ast, findImpl_hit]
    · rw [tryFromAst, findImpl_miss hmiss2, EnumIndexer.ast, findImpl_hit]
    · rw [asRefAst, findImpl_miss hmiss1, EnumIndexer.ast, findImpl_hit]
    · rw [asRefAst, findImpl_miss hmiss1, tryFromAst, findImpl_miss hmiss2, EnumIndexer.ast, findImpl_hit]
  unfold indexerImplOf
  rw [hi]
  dsimp only [Option.bind_some]
  rw [findAssoc_hit]
  dsimp only [Option.bind_some]
  rw [findFn_assoc, findFn_hit]
  dsimp only [Option.bind_some]
  rw [findFn_assoc, findFn_miss (by decide), findFn_self]
  dsimp only [Option.bind_some]
  rw [if_pos (isError_error true)]
  congr 1
  unfold enumIndexerImpl
  congr 1
  · funext i vs
    rw [bodyValue_match, find_variant]
    cases e.variants[i]? with
    | none => rfl
    | some w =>
      simp only [Option.bind_some, arm_eq]
      cases ix.index.find? fun a => decide (a.1 = w.1) with
      | none => rfl
      | some a =>
        dsimp only [Option.map_some]
        rw [value_int]
        rfl
  · funext k
    rw [name_by_index_value k (arms := ix.byIndex) (i := fun a => a.1) (t := fun a => a.2) _ (result_okStringify ix.otherwise), arm_eq]
    cases ix.byIndex.find? fun a => decide (a.1 = k.toInt) <;> rfl

theorem enum_ast {f : RustFile} (hs : f.Scoped) (hnd : (f.types.map (·.name.str)).Nodup) {e : EnumItem}
    (he : .enum e ∈ f.types) {d : Def} (hd : e.meaning = some d) :
    enumDef f.ast [.derive ((enumDerives e.deriveIndexer).map nameOf), .repr (nameOf c!"i32")] e.name
      (enumVariants e.variants) = some d := by
  obtain ⟨-, ⟨h1, rfl⟩ | ⟨h1, ix, hix, rfl⟩⟩ := enum_meaning_ok hd
  · rw [h1]
    unfold enumDef
    rw [if_pos (serde_of f (by decide) (by decide)), enumVariants, allSome_map (r := e.variants.map fun v => (v.1.str, .unit))]
    · rfl
    · rw [List.forall₂_map_right_iff, List.forall₂_same]
      intro v _
      show some (identString v.1, Shape.unit) = _
      rw [identString_str]
  · rw [h1]
    unfold enumDef
    rw [not_serde f (by decide), indexer_of ((hs.types _ he).2 h1) (by decide)]
    simp only [Bool.false_eq_true, if_false, if_true]
    rw [enumIndexer_ast hnd he hix, enumVariants,
      allSome_map (r := e.variants.map fun v => (v.1.str, (none : Option (List Ty))))]
    · rfl
    · rw [List.forall₂_map_right_iff, List.forall₂_same]
      intro v _
      show some (identString v.1, none) = _
      rw [identString_str]

/-! ## Structs -/

theorem struct_ast {f : RustFile} (hs : f.Scoped) (hnd : (f.types.map (·.name.str)).Nodup) {s : StructItem}
    (hp : ∀ fl ∈ s.fields, ∀ p ∈ fl.2.2.paths, OwnName p) {d : Def} (hd : s.meaning f.constants f.enums = some d) :
    structDef f.ast [.derive (structDerives.map nameOf)] (s.fields.map fun f => ⟨f.1.ast, true, f.2.1, f.2.2.ast⟩) =
      some d := by
  unfold StructItem.meaning at hd
  split at hd
  · simp only [Option.map_eq_some_iff] at hd
    obtain ⟨fs, hfs, rfl⟩ := hd
    unfold structDef
    rw [if_pos (serde_of f (by decide) (by decide)), allSome_map (r := fs)]
    · rfl
    · have h := fieldsMeaning_each hfs
      clear hfs
      generalize s.fields = l at h hp
      induction h with
      | nil => exact .nil
      | @cons a b l r h1 _ ih =>
        refine .cons ?_ (ih fun fl hfl => hp fl (by simp [hfl]))
        rw [field_ast hs hnd (hp a (by simp)) h1.2.2, identString_str, ← h1.2.1]
        rfl
  · cases hd

/-! ## Unions -/

theorem variant_arity (v : Variant) : v.ast.arity = v.fields.length := by
  unfold Variant.ast RVariant.arity
  cases h : v.fields <;> simp

theorem isName_id {t : Tok} (h : t.IsName) : t = .ident t.id ∧ t.str = t.id.str := by
  obtain ⟨i, rfl, -⟩ := h
  exact ⟨rfl, rfl⟩

theorem variants_shape {f : RustFile} (hs : f.Scoped) (hnd : (f.types.map (·.name.str)).Nodup) {vs : List Variant}
    (hu : ∀ v ∈ vs, v.fields = [] → v.attr = .none)
    (hp : ∀ v ∈ vs, ∀ t ∈ v.fields, ∀ p ∈ t.paths, OwnName p) {r : List (String × Shape)}
    (h : variantsMeaning (·.shape f.constants f.enums) vs = some r) :
    allSome (shapeOf f.ast) (vs.map Variant.ast) = some r := by
  refine allSome_map ?_
  replace h := variantsMeaning_ok h
  induction h with
  | nil => exact .nil
  | @cons v p l r h1 _ ih =>
    refine .cons ?_ (ih (fun x hx => hu x (by simp [hx])) fun x hx => hp x (by simp [hx]))
    obtain ⟨i, hi, -, hpi, hsh⟩ := h1
    have hv := hu v (by simp)
    have hpv := hp v (by simp)
    obtain ⟨attr, name, fields⟩ := v
    dsimp only at hi hsh hv hpv
    subst hi
    obtain ⟨p1, p2⟩ := p
    dsimp only at hpi hsh
    subst hpi
    match fields, hsh, hv, hpv with
    | [], hsh, hv, _ =>
      cases hsh
      cases hv rfl
      show some (identString i, Shape.unit) = _
      rw [identString_str]
    | [t], hsh, _, hpv =>
      simp only [Variant.shape, Option.map_eq_some_iff] at hsh
      obtain ⟨ty, hty, rfl⟩ := hsh
      show (fieldOf f.ast attr.ast t.ast).map (fun t => (identString i, Shape.newtype t)) = _
      rw [field_ast hs hnd (hpv t (by simp)) hty, identString_str]
      rfl

theorem tys_ast {f : RustFile} (hs : f.Scoped) {ts : List RTy} (hp : ∀ t ∈ ts, ∀ p ∈ t.paths, OwnName p) {r : List Ty}
    (h : tysMeaning f.constants ts = some r) : allSome (rustType f.ast) (ts.map RTy.ast) = some r := by
  refine allSome_map ?_
  replace h := tysMeaning_ok h
  induction h with
  | nil => exact .nil
  | cons h1 _ ih =>
    exact .cons (rustType_ast hs (hp _ (by simp)) h1) (ih fun x hx => hp x (by simp [hx]))

theorem variants_types {f : RustFile} (hs : f.Scoped) {vs : List Variant}
    (hp : ∀ v ∈ vs, ∀ t ∈ v.fields, ∀ p ∈ t.paths, OwnName p) {r : List (String × Option (List Ty))}
    (h : variantsMeaning (·.types f.constants) vs = some r) :
    allSome (fieldsOf f.ast) (vs.map Variant.ast) = some r := by
  refine allSome_map ?_
  replace h := variantsMeaning_ok h
  induction h with
  | nil => exact .nil
  | @cons v p l r h1 _ ih =>
    refine .cons ?_ (ih fun x hx => hp x (by simp [hx]))
    obtain ⟨i, hi, -, hpi, hsh⟩ := h1
    have hpv := hp v (by simp)
    obtain ⟨attr, name, fields⟩ := v
    dsimp only at hi hsh hpv
    subst hi
    obtain ⟨p1, p2⟩ := p
    dsimp only at hpi hsh
    subst hpi
    unfold Variant.types at hsh
    split at hsh
    · rename_i ha
      dsimp only at ha
      subst ha
      cases fields with
      | nil =>
        cases hsh
        show some (identString i, none) = _
        rw [identString_str]
      | cons t ts =>
        simp only [Option.map_eq_some_iff] at hsh
        obtain ⟨tys, hty, rfl⟩ := hsh
        show (allSome (rustType f.ast) ((t :: ts).map RTy.ast)).map (fun ts => (identString i, some ts)) = _
        rw [tys_ast hs hpv hty, identString_str]
        rfl
    · cases hsh

theorem variantArg_union (name : RIdent) (vs : List Variant) (i : Nat) :
    variantArg name (vs.map Variant.ast) i = match vs[i]? with
      | some v => .variant [name, v.name.id] v.fields.length
      | none => .other := by
  unfold variantArg
  rw [List.getElem?_map]
  cases vs[i]? with
  | none => rfl
  | some v =>
    dsimp only [Option.map_some]
    rw [variant_arity]
    rfl

/-- An arm of `index` takes the variant of its name. -/
theorem takes_index {u : UnionItem} (hu : u.Use) (hsc : u.Scoped) (hnd : (u.variants.map (·.name.str)).Nodup)
    {ix : UnionIndexer} (hix : u.indexer = some ix) {v : Variant} (hv : v ∈ u.variants) {a : Tok × Bool × Int}
    (ha : a ∈ ix.index) :
    (if a.2.1 then .tuple ⟨false, [u.name, a.1.id]⟩ [.wild] else .path ⟨false, [u.name, a.1.id]⟩ : RPattern).takes
      (.variant [u.name, v.name.id] v.fields.length) = decide (a.1 = v.name) := by
  obtain ⟨v', hv', hn, hlen⟩ := (hsc.indexer ix hix).2.2 a ha
  have h1 := isName_id (hu.variants v hv).name
  have h2 := isName_id (hu.variants v' hv').name
  rw [hn] at h2
  by_cases he : a.1 = v.name
  · have : v' = v := List.inj_on_of_nodup_map hnd hv' hv (by rw [hn, he])
    subst this
    rw [decide_eq_true he, hlen, he]
    cases a.2.1
    · simp [RPattern.takes]
    · simp [RPattern.takes, RPattern.isWild]
  · have hid : a.1.id ≠ v.name.id := fun h => he (by rw [h1.1, h2.1, h])
    rw [decide_eq_false he]
    cases a.2.1
    · simp [RPattern.takes, hid]
    · simp [RPattern.takes, hid]

theorem unionIndexer_ast {f : RustFile} (hnd : (f.types.map (·.name.str)).Nodup) {u : UnionItem} (hi : .union u ∈ f.types)
    (hu : u.Use) (hsc : u.Scoped) (hndv : (u.variants.map (·.name.str)).Nodup) {ix : UnionIndexer}
    (hix : u.indexer = some ix) :
    indexerImplOf f.ast u.name (u.variants.map Variant.ast) = some (unionIndexerImpl u.variants ix) := by
  have hf : findImpl f.ast (tyPath [c!"XdrIndexer"]) (tyNamed u.name) = some
    [.assoc (nameOf c!"Error") (errorTy true),
     .fn (nameOf c!"name_by_index") [.typed (nameOf c!"index") (tyPath [c!"i32"])] nameResultTy
      (matchWord c!"index" (ix.byIndex.map (fun a => (intPat .i32 a.1, okStringifyAst [identLex a.2.id])) ++
        [(.wild, if ix.otherwise then okStringifyAst [key c!"Default"] else errExpr true)])),
     .fn (nameOf c!"index") [.refSelf] (tyPath [c!"i32"])
      (matchWord c!"self" (ix.index.map (fun a =>
          ((if a.2.1 then .tuple ⟨false, [u.name, a.1.id]⟩ [.wild] else .path ⟨false, [u.name, a.1.id]⟩ : RPattern),
            intExpr a.2.2)) ++
        (if ix.indexOtherwise then [(.wild, RExpr.macroCall (wordsPath false [c!"unimplemented"]) [])] else [])))] := by
    have := findImpl_type hnd hi (tyPath [c!"XdrIndexer"])
    rw [show (Item.union u).name = u.name from rfl] at this
    rw [this, Item.ast, UnionItem.ast, hix]
    simp only [Option.map_some, Option.toList_some, List.cons_append, List.nil_append]
    rw [findImpl_enum, implDefaultAst, findImpl_miss (by decide), UnionIndexer.ast, findImpl_hit]
  unfold indexerImplOf
  rw [hf]
  dsimp only [Option.bind_some]
  rw [findAssoc_hit]
  dsimp only [Option.bind_some]
  rw [findFn_assoc, findFn_hit]
  dsimp only [Option.bind_some]
  rw [findFn_assoc, findFn_miss (by decide), findFn_self]
  dsimp only [Option.bind_some]
  rw [if_pos (isError_error true)]
  congr 1
  unfold unionIndexerImpl
  congr 1
  · funext i vs
    rw [bodyValue_match, variantArg_union]
    cases hv : u.variants[i]? with
    | none =>
      rw [find_arms (q := fun _ => false) (fun a _ => by dsimp only; cases a.2.1 <;> rfl)]
      simp only [List.find?_eq_none.2 (fun x _ => Bool.false_ne_true), Option.map_none, Option.none_or, Option.bind_none]
      cases ix.indexOtherwise <;> rfl
    | some v =>
      dsimp only [Option.bind_some]
      rw [find_arms (q := fun a => decide (a.1 = v.name))
        (fun a ha => takes_index hu hsc hndv hix (List.mem_of_getElem? hv) ha), arm_eq]
      cases ix.index.find? fun a => decide (a.1 = v.name) with
      | none =>
        simp only [Option.map_none, Option.none_or]
        cases ix.indexOtherwise <;> rfl
      | some a =>
        dsimp only [Option.map_some, Option.some_or]
        rw [value_int]
        rfl
  · funext k
    have hlast : (if ix.otherwise then okStringifyAst [key c!"Default"] else errExpr true).value.result RVal.str? =
        if ix.otherwise then .ok defaultTok.str else .err .convert := by
      cases ix.otherwise
      · exact result_err _ true
      · exact result_okStringify ⟨false, c!"Default"⟩
    rw [name_by_index_value k (arms := ix.byIndex) (i := fun a => a.1) (t := fun a => a.2.id) _ hlast, arm_eq]
    cases hfi : ix.byIndex.find? fun a => decide (a.1 = k.toInt) with
    | none => rfl
    | some a =>
      obtain ⟨-, -, hb, -⟩ := hu.indexer ix hix
      show Res.ok a.2.id.str = Res.ok a.2.str
      rw [(isName_id (hb a (List.mem_of_find?_eq_some hfi))).2]

theorem discriminant_ast {vs : List Variant} {cond : RTy} (h : ∀ v ∈ vs, v.fields = [] ∨ v.fields.head? = some cond)
    (he : ∃ v ∈ vs, v.fields ≠ []) : discriminantOf (vs.map Variant.ast) = some cond.ast := by
  unfold discriminantOf
  induction vs with
  | nil => simp at he
  | cons v vs ih =>
    rw [List.map_cons, List.findSome?_cons]
    rcases h v (by simp) with h1 | h1
    · have : v.ast.fields = none := by simp [Variant.ast, h1]
      rw [this]
      refine ih (fun w hw => h w (by simp [hw])) ?_
      obtain ⟨w, hw, hne⟩ := he
      rcases List.mem_cons.1 hw with rfl | hw
      · exact absurd h1 hne
      · exact ⟨w, hw, hne⟩
    · cases hf : v.fields with
      | nil => rw [hf] at h1; cases h1
      | cons t ts =>
        rw [hf] at h1
        cases h1
        have : v.ast.fields = some ((cond :: ts).map RTy.ast) := by simp [Variant.ast, hf]
        rw [this]
        rfl

theorem condArg_variant (items : List RItem) (cond : RType) (i : Nat) (vs : List Val) :
    condArg items cond (.variant i vs) = .other ∨ ∃ q n, condArg items cond (.variant i vs) = .variant q n := by
  unfold condArg
  dsimp only
  split
  · split
    · unfold variantArg
      split
      · exact .inr ⟨_, _, rfl⟩
      · exact .inl rfl
    · exact .inl rfl
  · exact .inl rfl

/-- A pattern of `name_by_value` takes the values of the model. -/
theorem takes_pat {f : RustFile} (hnd : (f.types.map (·.name.str)).Nodup) {cond : RTy} {p : Pat}
    (h : p.fits f.enums cond = true) (v : Val) : p.ast.takes (condArg f.ast cond.ast v) = p.matches f.enums v := by
  cases p with
  | path c w =>
    simp only [Pat.fits] at h
    split at h
    · rename_i e hf
      simp only [decide_eq_true_eq] at h
      obtain ⟨rfl, -⟩ := h
      have he := mem_enums.1 (List.mem_of_find?_eq_some hf)
      have hn : e.name = c := by simpa using List.find?_some hf
      subst hn
      cases v with
      | variant i vs =>
        rw [RTy.ast, tyNamed, condArg]
        rw [findEnum_enum hnd he]
        dsimp only
        rw [variantArg_enum, Pat.matches, hf]
        dsimp only
        cases e.variants[i]? with
        | none => simp [Pat.ast, RPattern.takes]
        | some x =>
          dsimp only
          rw [Pat.ast, takes_variant_iff]
          simp only [Option.map_some, Option.some.injEq]
          exact decide_eq_decide.2 eq_comm
      | _ => rfl
    · cases h
  | lit k =>
    cases v with
    | u32 x =>
      rw [condArg, Pat.matches, Pat.ast]
      rw [show c!"u32" = IntTy.u32.suffix from rfl, takes_intPat_iff]
      exact decide_eq_decide.2 eq_comm
    | variant i vs => rcases condArg_variant f.ast cond.ast i vs with h | ⟨_, _, h⟩ <;> rw [h] <;> rfl
    | _ => rfl
  | bool b =>
    cases v with
    | variant i vs => rcases condArg_variant f.ast cond.ast i vs with h | ⟨_, _, h⟩ <;> rw [h] <;> rfl
    | _ => rfl

theorem unionUnion_ast {f : RustFile} (hnd : (f.types.map (·.name.str)).Nodup) {u : UnionItem} (hi : .union u ∈ f.types)
    (hu : u.Use) {un : UnionUnion} (hun : u.union = some un) {cond : RTy} (hc : un.cond = some cond)
    (hfit : ∀ p ∈ un.byValue, p.1.fits f.enums cond = true) :
    unionImplOf f.ast u.name cond.ast = some (unionUnionImpl f.enums un) := by
  have hf : findImpl f.ast (.app (tyPath [c!"XdrUnion"]) cond.ast) (tyNamed u.name) = some
    [.assoc (nameOf c!"Error") (errorTy true),
     .fn (nameOf c!"name_by_value") [.typed (nameOf c!"value") (.ref none cond.ast)] nameResultTy
      (matchWord c!"value" (un.byValue.map (fun a => (a.1.ast, okStringifyAst [identLex a.2.id])) ++
        (match un.otherwise with
          | .none => []
          | .default => [(.wild, okStringifyAst [key c!"Default"])]
          | .err => [(.wild, errExpr true)])))] := by
    have := findImpl_type hnd hi (.app (tyPath [c!"XdrUnion"]) cond.ast)
    rw [show (Item.union u).name = u.name from rfl] at this
    rw [this, Item.ast, UnionItem.ast, hun]
    simp only [Option.bind_some, hc, Option.map_some, Option.toList_some, List.cons_append, List.nil_append]
    rw [findImpl_enum, implDefaultAst, findImpl_miss (by simp [tyPath])]
    cases u.indexer with
    | none =>
      simp only [Option.map_none, Option.toList_none, List.nil_append]
      rw [UnionUnion.ast, findImpl_hit]
      rfl
    | some ix =>
      simp only [Option.map_some, Option.toList_some, List.cons_append, List.nil_append]
      rw [UnionIndexer.ast, findImpl_miss (by simp [tyPath]), UnionUnion.ast, findImpl_hit]
      rfl
  unfold unionImplOf
  rw [hf]
  dsimp only [Option.bind_some]
  rw [findAssoc_hit]
  dsimp only [Option.bind_some]
  rw [findFn_assoc, findFn_hit]
  dsimp only [Option.bind_some]
  rw [if_pos (isError_error true)]
  congr 1
  unfold unionUnionImpl
  congr 1
  funext v
  rw [bodyValue_match, find_arms (q := fun a => a.1.matches f.enums v) (fun a ha => takes_pat hnd (hfit a ha) v)]
  cases hfi : un.byValue.find? fun a => a.1.matches f.enums v with
  | none =>
    simp only [Option.map_none, Option.none_or]
    cases un.otherwise with
    | none => rfl
    | default => exact result_okStringify ⟨false, c!"Default"⟩
    | err => exact result_err _ true
  | some a =>
    obtain ⟨-, -, hb⟩ := hu.union un hun
    dsimp only [Option.map_some, Option.some_or]
    rw [(isName_id (hb a (List.mem_of_find?_eq_some hfi)).2).2]
    exact result_okStringify _

theorem union_ast {f : RustFile} (hs : f.Scoped) (hnd : (f.types.map (·.name.str)).Nodup) {u : UnionItem}
    (hi : .union u ∈ f.types) (hu : u.Use) (hp : ∀ v ∈ u.variants, ∀ t ∈ v.fields, ∀ p ∈ t.paths, OwnName p) {d : Def}
    (hd : u.meaning f.constants f.enums = some d) :
    enumDef f.ast [.derive ((unionDerives u.derive).map nameOf)] u.name (u.variants.map Variant.ast) = some d := by
  obtain ⟨hsc, hsi, hsu⟩ := hs.types _ hi
  obtain ⟨hndv, ⟨h1, vars, h2, rfl⟩ | ⟨h1, ix, vars, hix, h2, -, -, -, rfl⟩ |
    ⟨h1, un, vars, cond, dt, hun, h2, hc, hfit, hhead, ⟨v, hv, hne⟩, -, hdt, rfl⟩⟩ := union_meaning_ok hd
  · rw [h1]
    unfold enumDef
    rw [if_pos (serde_of f (by decide) (by decide)), variants_shape hs hnd hsc.unit hp h2]
    rfl
  · rw [h1]
    unfold enumDef
    rw [not_serde f (by decide), indexer_of (hsi h1) (by decide)]
    simp only [Bool.false_eq_true, if_false, if_true]
    rw [variants_types hs hp h2, unionIndexer_ast hnd hi hu hsc hndv hix]
    rfl
  · rw [h1]
    unfold enumDef
    have hpc : ∀ p ∈ cond.paths, OwnName p := by
      rcases hhead v hv with h | h
      · exact absurd h hne
      · exact hp v hv cond (List.mem_of_head? h)
    rw [not_serde f (by decide), not_xdr f (by decide), unions_of (hsu h1) (by decide)]
    simp only [Bool.false_eq_true, if_false, if_true]
    rw [variants_types hs hp h2, discriminant_ast hhead ⟨v, hv, hne⟩]
    dsimp only [Option.bind_some]
    rw [rustType_ast hs hpc hdt]
    dsimp only [Option.bind_some]
    rw [unionUnion_ast hnd hi hu hun hc hfit]
    rfl

/-! ## The file -/

/-- Items that define no type. -/
def NoType : RItem → Prop
  | .use _ => True
  | .const _ _ _ _ => True
  | .impl _ _ _ => True
  | _ => False

theorem defsOf_skip (items : List RItem) {l rest : List RItem} (h : ∀ x ∈ l, NoType x) :
    defsOf items (l ++ rest) = defsOf items rest := by
  induction l with
  | nil => rfl
  | cons x l ih =>
    have := h x (by simp)
    cases x with
    | use _ => exact ih fun y hy => h y (by simp [hy])
    | const _ _ _ _ => exact ih fun y hy => h y (by simp [hy])
    | impl _ _ _ => exact ih fun y hy => h y (by simp [hy])
    | «alias» _ _ _ => cases this
    | enum _ _ _ _ => cases this
    | struct _ _ _ _ => cases this

theorem defsOf_item {f : RustFile} (hs : f.Scoped) (hnd : (f.types.map (·.name.str)).Nodup) {i : Item} (hi : i ∈ f.types)
    (hu : i.Use) (hp : ∀ p ∈ i.paths, OwnName p) {d : Def} (hd : i.meaning f.constants f.enums = some d)
    (rest : List RItem) :
    defsOf f.ast (i.ast ++ rest) = (defsOf f.ast rest).map ((i.name.str, d) :: ·) := by
  cases i with
  | «alias» _ _ => cases hd
  | struct s =>
    show (structDef f.ast _ _).bind (fun d => (defsOf f.ast rest).map ((identString s.name, d) :: ·)) = _
    rw [struct_ast hs hnd (fun fl hfl p hpp => hp p (List.mem_flatMap.2 ⟨fl, hfl, hpp⟩)) hd, identString_str]
    rfl
  | enum e =>
    have h1 : (Item.enum e).ast ++ rest = .enum [.derive ((enumDerives e.deriveIndexer).map nameOf), .repr (nameOf c!"i32")]
        true e.name (enumVariants e.variants) ::
        ((implDefaultAst e.name (.operand (.path ⟨false, [e.name, e.default]⟩)) ::
          ((e.asRef.map (asRefAst e.name)).toList ++ (e.tryFrom.map (tryFromAst e.name)).toList ++
            (e.indexer.map (EnumIndexer.ast e.name)).toList)) ++ rest) := by
      simp [Item.ast, EnumItem.ast, enumVariants]
    rw [h1, defsOf, enum_ast hs hnd hi hd, defsOf_skip, identString_str]
    · rfl
    · intro x hx
      simp only [List.mem_cons, List.mem_append, Option.mem_toList, Option.map_eq_some_iff] at hx
      rcases hx with rfl | (⟨_, _, rfl⟩ | ⟨_, _, rfl⟩) | ⟨_, _, rfl⟩ <;> trivial
  | union u =>
    have h1 : (Item.union u).ast ++ rest = .enum [.derive ((unionDerives u.derive).map nameOf)]
        true u.name (u.variants.map Variant.ast) ::
        ((implDefaultAst u.name (unionDefaultAst u.name u.default) ::
          ((u.indexer.map (UnionIndexer.ast u.name)).toList ++
            (u.union.bind fun un => un.cond.map fun c => un.ast u.name c).toList)) ++ rest) := by
      simp [Item.ast, UnionItem.ast]
    rw [h1, defsOf, union_ast hs hnd hi hu (fun v hv t ht p hpp =>
      hp p (List.mem_flatMap.2 ⟨v, hv, List.mem_flatMap.2 ⟨t, ht, hpp⟩⟩)) hd, defsOf_skip, identString_str]
    · rfl
    · intro x hx
      simp only [List.mem_cons, List.mem_append, Option.mem_toList, Option.map_eq_some_iff,
        Option.bind_eq_some_iff] at hx
      rcases hx with rfl | ⟨_, _, rfl⟩ | ⟨_, _, _, _, rfl⟩ <;> trivial

theorem defsOf_ast {f : RustFile} (hs : f.Scoped) (hu : f.Use) (hno : f.namesOk = true) {l : List (String × Def)}
    (hl : itemsMeaning f.constants f.enums f.types = some l) : defsOf f.ast f.ast = some l := by
  obtain ⟨hnd, hus, hpa, -⟩ := namesOk_iff.1 hno
  have hown : ∀ i ∈ f.types, ∀ p ∈ i.paths, OwnName p := by
    intro i hi p hp
    obtain ⟨j, hj, rfl⟩ := List.mem_map.1 (hpa i hi p hp)
    exact ⟨(hus j hj).2, hs.names j hj⟩
  have key : ∀ is l, (∀ i ∈ is, i ∈ f.types) → itemsMeaning f.constants f.enums is = some l →
      defsOf f.ast (is.flatMap Item.ast) = some l := by
    intro is
    induction is with
    | nil =>
      intro l _ h
      cases h
      rfl
    | cons i is ih =>
      intro l hm h
      simp only [itemsMeaning] at h
      split at h
      · rename_i d r h1 h2
        cases h
        have hi := hm i (by simp)
        rw [List.flatMap_cons, defsOf_item hs hnd hi (hu.types i hi) (hown i hi) h1,
          ih r (fun j hj => hm j (by simp [hj])) h2]
        rfl
      · cases h
  conv => lhs; arg 2; rw [ast_eq]
  rw [defsOf_skip, defsOf_skip, key f.types l (fun _ h => h) hl]
  · intro x hx
    obtain ⟨c, -, rfl⟩ := List.mem_map.1 hx
    trivial
  · intro x hx
    obtain ⟨ps, rfl⟩ := uses_use hx
    trivial

/-- The text of a generated file defines what the file does. -/
theorem rustDefs_text {n : Nat} {ds : List Definition} {cfg : Config} {file : RustFile}
    (hcfg : cfg.union_impl_indexer = true → cfg.union_impl_union = false)
    (hg : gen_code n ds cfg = .ok file) {defs : List (String × Def)} (hd : file.defs = some defs) :
    rustDefs file.text = some defs := by
  have hs := gen_code_Scoped hcfg hg
  have hu := use_of_defs hs hd
  obtain ⟨hno, l, hl, rfl⟩ := defs_ok hd
  unfold rustDefs
  rw [parse_file hg hu]
  dsimp only [Option.bind_some]
  rw [defsOf_ast hs hu hno hl]
  rfl

end Xdr.Rpcgen
