import Verif.Props.DeriveTokens
import Verif.Props.DeriveGen
import Verif.Proofs.SynEnum
/-!
# C62 for the tokens rpcgen writes

From the declaration of a generated enum, token by token, to what its derived impls do: `syn`, the macro, rustc.
-/

namespace Xdr.Rpcgen

open Xdr.Derive RustCode

/-- `pub enum U { .. }` of a generated union. -/
def UnionItem.declaration (u : UnionItem) : List Token :=
  [kw c!"pub", kw c!"enum", .ident u.name, .group .brace (commaSep (u.variants.map Variant.tokens))]

/-- `#[repr(i32)] pub enum E { .. }` of a generated enum. -/
def EnumItem.declaration (e : EnumItem) : List Token :=
  [.op c!"#", .group .bracket [kw c!"repr", .group .paren [kw c!"i32"]],
    kw c!"pub", kw c!"enum", .ident e.name,
    .group .brace (commaSep (e.variants.map fun v => .ident v.1 :: .op c!"=" :: intTokens .i32 v.2))]

/-- They are what comes after `#[derive(..)]`. -/
theorem UnionItem.declared (u : UnionItem) : ∃ names rest, u.tokens = deriveTokens names ++ u.declaration ++ rest := by
  simp only [UnionItem.tokens, UnionItem.declaration, List.append_assoc]
  exact ⟨_, _, rfl⟩

theorem EnumItem.declared (e : EnumItem) : ∃ names rest, e.tokens = deriveTokens names ++ e.declaration ++ rest := by
  simp only [EnumItem.tokens, EnumItem.declaration, List.append_assoc, List.cons_append, List.nil_append]
  exact ⟨_, _, rfl⟩

theorem usable_path {i : RIdent} (h : i.usable = true) : i ∉ notPath := by
  intro hi
  simp only [notPath, List.mem_cons, List.not_mem_nil, or_false] at hi
  rcases hi with rfl | rfl | rfl | rfl | rfl | rfl | rfl | rfl | rfl | rfl | rfl <;> revert h <;> decide

theorem tysMeaning_forall {cs : List ConstItem} {meaning : List Token → Option Ty} : ∀ {ts : List RTy} {tys : List Ty},
    tysMeaning cs ts = some tys → (∀ t ∈ ts, meaning t.tokens = t.meaning cs) →
    List.Forall₂ (fun t ty => meaning t = some ty) (ts.map RTy.tokens) tys
  | [], tys, h, _ => by cases h; exact .nil
  | t :: ts, tys, h, hm => by
    rw [List.forall_mem_cons] at hm
    simp only [tysMeaning] at h
    split at h
    · next ty tys' h1 h2 =>
      cases h
      exact .cons (by rw [hm.1, h1]) (tysMeaning_forall h2 hm.2)
    · cases h

/-- The fields, as `syn` has them. -/
def fieldsSyn (ts : List RTy) : FieldTokens := if ts = [] then .unit else .unnamed (ts.map RTy.tokens)

theorem synVariant_tokens {v : Variant} {i : RIdent} (hn : v.name = .ident i) (ha : v.attr = .none) :
    synVariant v.tokens = some ⟨i, fieldsSyn v.fields⟩ ∧ .op c!"," ∉ v.tokens ∧ v.tokens ≠ [] := by
  obtain ⟨attr, name, fields⟩ := v
  simp only at hn ha
  subst hn ha
  cases fields with
  | nil => exact ⟨rfl, by simp [Variant.tokens, Attr.tokens, Tok.tokens], by simp [Variant.tokens, Tok.tokens]⟩
  | cons t ts =>
    refine ⟨?_, by simp [Variant.tokens, Attr.tokens, Tok.tokens], by simp [Variant.tokens, Tok.tokens]⟩
    simp only [Variant.tokens, Attr.tokens, Tok.tokens, List.nil_append, List.isEmpty_cons, Bool.false_eq_true, if_false,
      List.singleton_append, synVariant, skipAttrs]
    rw [splitTypes_types (by simp), dropLastEmpty_eq (fun p hp => by
      obtain ⟨t, -, rfl⟩ := List.mem_map.1 hp
      exact tokens_ne t), List.map_map]
    simp only [fieldsSyn, reduceCtorEq, if_false]
    congr 3
    exact List.map_congr_left fun t _ => skipAttrs_type t

theorem types_attr {cs : List ConstItem} {v : Variant} {o : Option (List Ty)} (h : v.types cs = some o) :
    v.attr = .none := by
  unfold Variant.types at h
  split at h
  · assumption
  · cases h

theorem types_mean {cs : List ConstItem} {v : Variant} {o : Option (List Ty)} (h : v.types cs = some o)
    {meaning : List Token → Option Ty} (hm : ∀ t ∈ v.fields, meaning t.tokens = t.meaning cs) :
    FieldsMean meaning (fieldsSyn v.fields) o := by
  unfold Variant.types at h
  rw [if_pos (types_attr (by unfold Variant.types; exact h))] at h
  unfold fieldsSyn
  split at h
  · next hf => cases h; rw [if_pos hf]; trivial
  · next hf =>
    rw [if_neg hf]
    obtain ⟨tys, h1, rfl⟩ := Option.map_eq_some_iff.1 h
    exact tysMeaning_forall h1 hm

/-- The variants of a generated union: `syn` reads them, and they mean what the model says. -/
theorem synVariants {cs : List ConstItem} {vs : List Variant} {vars : List (String × Option (List Ty))}
    (h : variantsMeaning (·.types cs) vs = some vars) {meaning : List Token → Option Ty}
    (hm : ∀ v ∈ vs, ∀ t ∈ v.fields, meaning t.tokens = t.meaning cs) :
    ∃ (es : List VariantTokens) (xs : List (RIdent × Option (List Ty))), (vs.map Variant.tokens).mapM synVariant = some es ∧
      List.Forall₂ (fun v x => v.ident = x.1 ∧ FieldsMean meaning v.fields x.2) es xs ∧
      (xs.map fun v => (v.1.str, v.2)) = vars ∧
      (∀ v ∈ es, ∀ tts, v.fields = .unnamed tts → ∀ t ∈ tts, IsType t) ∧
      (∀ p ∈ vs.map Variant.tokens, .op c!"," ∉ p ∧ p ≠ []) := by
  have hf := variantsMeaning_ok h
  clear h
  induction hf with
  | nil => exact ⟨[], [], rfl, .nil, rfl, by simp, by simp⟩
  | @cons v w vs vars hx _ ih =>
    rw [List.forall_mem_cons] at hm
    obtain ⟨es, xs, h1, h2, h3, h4, h5⟩ := ih hm.2
    obtain ⟨i, hn, -, hs, ht⟩ := hx
    have ht : v.types cs = some w.2 := ht
    obtain ⟨hv1, hv2⟩ := synVariant_tokens hn (types_attr ht)
    refine ⟨⟨i, fieldsSyn v.fields⟩ :: es, (i, w.2) :: xs, ?_, .cons ⟨rfl, types_mean ht hm.1⟩ h2, ?_, ?_, ?_⟩
    · rw [List.map_cons, List.mapM_cons, hv1, h1]
      rfl
    · simp only [List.map_cons, h3, ← hs]
    · rw [List.forall_mem_cons]
      refine ⟨fun tts hf t hin => ?_, h4⟩
      simp only [fieldsSyn] at hf
      split at hf
      · cases hf
      · cases hf
        obtain ⟨t, -, rfl⟩ := List.mem_map.1 hin
        exact isType_tokens t
    · rw [List.map_cons, List.forall_mem_cons]
      exact ⟨hv2, h5⟩

theorem syn_parse_union (u : UnionItem) {es : List VariantTokens} (hne : u.variants ≠ [])
    (h : (u.variants.map Variant.tokens).mapM synVariant = some es)
    (hp : ∀ p ∈ u.variants.map Variant.tokens, .op c!"," ∉ p ∧ p ≠ []) :
    syn_parse u.declaration = some (.enum ⟨u.name, es⟩) := by
  have h1 : skipVis (skipAttrs u.declaration) =
      [kw c!"enum", .ident u.name, .group .brace (commaSep (u.variants.map Variant.tokens))] := rfl
  simp only [syn_parse, h1, kw]
  rw [if_pos (by decide), splitCommas_commaSep (by simpa using hne) fun p hin => (hp p hin).1,
    dropLastEmpty_eq fun p hin => (hp p hin).2, h]
  rfl

/-- C62. What `#[derive(XdrUnion)]` makes of the declaration of a generated union is two impls that do what the model of
the generated code says. -/
theorem C62_generated_union_code (cs : List ConstItem) (enums : List EnumItem) (u : UnionItem) (d : Ty)
    (vars : List (String × Option (List Ty))) (impl : UnionImpl)
    (h : u.meaning cs enums = some (.union d vars impl)) (hu : u.name.usable = true) (meaning : List Token → Option Ty)
    (hm : ∀ v ∈ u.variants, ∀ t ∈ v.fields, meaning t.tokens = t.meaning cs) :
    ∃ ts impls E, derive_union u.declaration = some (.ok ts) ∧ readImpls u.name ts = some impls ∧
      E.name = u.name ∧ E.shapes = vars ∧
      (∀ env : Env, env u.name.str = some (.union d vars impl) →
        ∀ i vs s, present env (.named u.name.str) (.variant i vs) = some s →
          runSerialize env E none i vs impls.serialize = some s) ∧
      (∀ field : Ty → De Val,
        deserialize_tuple impls.length (runVisit meaning field E ⟨none, some impl.name_by_value⟩ impls.visit) =
          deDef field u.name.str (.union d vars impl)) := by
  have hv : ∃ cond, variantsMeaning (·.types cs) u.variants = some vars ∧ cond.meaning cs = some d ∧
      (u.variants.map (·.name.str)).Nodup ∧ (∀ v ∈ u.variants, v.fields = [] ∨ v.fields.head? = some cond) ∧
      ∃ v ∈ u.variants, v.fields ≠ [] := by
    unfold UnionItem.meaning at h
    split at h
    · next hn =>
      split at h
      · simp at h
      · split at h
        · split at h <;> simp at h
        · cases h
      · split at h
        · next un vars' h1 h2 =>
          split at h
          · next c hc =>
            split at h
            · next hcond =>
              simp only [Option.map_eq_some_iff, Def.union.injEq] at h
              obtain ⟨disc, h3, rfl, rfl, rfl⟩ := h
              exact ⟨c, h2, h3, hn, hcond.2.1, hcond.2.2.2.1⟩
            · cases h
          · cases h
        · cases h
    · cases h
  obtain ⟨cond, hvars, hcond, hn, hhead, hsome⟩ := hv
  have hne : u.variants ≠ [] := by
    obtain ⟨v, hv, -⟩ := hsome
    intro he
    simp [he] at hv
  obtain ⟨es, xs, h1, h2, h3, h4, h5⟩ := synVariants hvars hm
  have hE : Understood meaning ⟨u.name, es⟩ ⟨u.name, xs⟩ := by
    refine ⟨rfl, usable_path hu, h2, ?_, h4⟩
    have := names_nodup hvars hn
    rw [← h3] at this
    simpa [Function.comp_def] using this
  have hd : xs.findSome? (fun v => v.2.bind List.head?) = some d := by
    have := valueTy_generated hcond hvars hhead hsome
    rw [← h3] at this
    simpa [valueTy, List.findSome?_map, Function.comp_def] using this
  obtain ⟨ts, impls, r1, r2, -, r4, r5⟩ := C62_union_code meaning _ _ hE d hd
  have hs : EnumType.shapes ⟨u.name, xs⟩ = vars := h3
  rw [hs] at r4 r5
  exact ⟨ts, impls, ⟨u.name, xs⟩, by rw [derive_union, syn_parse_union u hne h1 h5, Option.map_some, r1], r2, rfl, hs,
    fun env henv => r4 env impl henv, fun field => r5 field impl⟩

/-- C62. The same for `#[derive(XdrIndexer)]` and a generated union. -/
theorem C62_generated_indexer_code (cs : List ConstItem) (enums : List EnumItem) (u : UnionItem)
    (vars : List (String × Option (List Ty))) (impl : IndexerImpl)
    (h : u.meaning cs enums = some (.indexer vars impl)) (hu : u.name.usable = true) (hne : u.variants ≠ [])
    (meaning : List Token → Option Ty) (hi : meaning [kw c!"i32"] = some .i32)
    (hm : ∀ v ∈ u.variants, ∀ t ∈ v.fields, meaning t.tokens = t.meaning cs) :
    ∃ ts impls E, derive_indexer u.declaration = some (.ok ts) ∧ readImpls u.name ts = some impls ∧
      E.name = u.name ∧ E.shapes = vars ∧
      (∀ env : Env, env u.name.str = some (.indexer vars impl) →
        ∀ i vs s, present env (.named u.name.str) (.variant i vs) = some s →
          runSerialize env E (some (impl.index i vs)) i vs impls.serialize = some s) ∧
      (∀ field : Ty → De Val, field .i32 = deserialize_i32 (fun i => pure (.i32 i)) →
        deserialize_tuple impls.length (runVisit meaning field E ⟨some impl.name_by_index, none⟩ impls.visit) =
          deDef field u.name.str (.indexer vars impl)) := by
  have hv : variantsMeaning (·.types cs) u.variants = some vars ∧ (u.variants.map (·.name.str)).Nodup := by
    unfold UnionItem.meaning at h
    split at h
    · next hn =>
      split at h
      · simp at h
      · split at h
        · next ix vars' h1 h2 =>
          split at h
          · simp only [Option.some.injEq, Def.indexer.injEq] at h
            obtain ⟨rfl, rfl⟩ := h
            exact ⟨h2, hn⟩
          · cases h
        · cases h
      · split at h
        · split at h
          · split at h <;> simp at h
          · cases h
        · cases h
    · cases h
  obtain ⟨hvars, hn⟩ := hv
  obtain ⟨es, xs, h1, h2, h3, h4, h5⟩ := synVariants hvars hm
  have hE : Understood meaning ⟨u.name, es⟩ ⟨u.name, xs⟩ := by
    refine ⟨rfl, usable_path hu, h2, ?_, h4⟩
    have := names_nodup hvars hn
    rw [← h3] at this
    simpa [Function.comp_def] using this
  have hes : es ≠ [] := by
    rintro rfl
    cases h2
    have := (variantsMeaning_ok hvars).length_eq
    rw [← h3] at this
    exact hne (List.eq_nil_of_length_eq_zero this)
  obtain ⟨ts, impls, r1, r2, -, r4, r5⟩ := C62_indexer_code meaning _ _ hE hi hes
  have hs : EnumType.shapes ⟨u.name, xs⟩ = vars := h3
  rw [hs] at r4 r5
  exact ⟨ts, impls, ⟨u.name, xs⟩, by rw [derive_indexer, syn_parse_union u hne h1 h5, Option.map_some, r1], r2, rfl, hs,
    fun env henv => r4 env impl henv, fun field => r5 field impl⟩

theorem intTokens_comma (t : IntTy) (n : Int) : .op c!"," ∉ intTokens t n := by
  unfold intTokens
  split <;> simp

theorem syn_parse_enum (e : EnumItem) (hne : e.variants ≠ []) :
    syn_parse e.declaration = some (.enum ⟨e.name, e.variants.map fun v => ⟨v.1, .unit⟩⟩) := by
  have h1 : skipVis (skipAttrs e.declaration) =
      [kw c!"enum", .ident e.name,
        .group .brace (commaSep (e.variants.map fun v => .ident v.1 :: .op c!"=" :: intTokens .i32 v.2))] := rfl
  simp only [syn_parse, h1, kw]
  rw [if_pos (by decide), splitCommas_commaSep (by simpa using hne) (fun p hin => by
      obtain ⟨v, -, rfl⟩ := List.mem_map.1 hin
      simpa using intTokens_comma .i32 v.2),
    dropLastEmpty_eq (fun p hin => by obtain ⟨v, -, rfl⟩ := List.mem_map.1 hin; simp)]
  have : (e.variants.map fun v => Token.ident v.1 :: .op c!"=" :: intTokens .i32 v.2).mapM synVariant =
      some (e.variants.map fun v => ⟨v.1, .unit⟩) := by
    generalize e.variants = vs
    induction vs with
    | nil => rfl
    | cons v vs ih =>
      rw [List.map_cons, List.mapM_cons, ih]
      rfl
  rw [this]
  rfl

/-- C62. The same for a generated enum. -/
theorem C62_generated_enum_code (e : EnumItem) (vars : List (String × Option (List Ty))) (impl : IndexerImpl)
    (h : e.meaning = some (.indexer vars impl)) (hu : e.name.usable = true) (hne : e.variants ≠ [])
    (meaning : List Token → Option Ty) (hi : meaning [kw c!"i32"] = some .i32) :
    ∃ ts impls E, derive_indexer e.declaration = some (.ok ts) ∧ readImpls e.name ts = some impls ∧
      E.name = e.name ∧ E.shapes = vars ∧
      (∀ env : Env, env e.name.str = some (.indexer vars impl) →
        ∀ i vs s, present env (.named e.name.str) (.variant i vs) = some s →
          runSerialize env E (some (impl.index i vs)) i vs impls.serialize = some s) ∧
      (∀ field : Ty → De Val, field .i32 = deserialize_i32 (fun i => pure (.i32 i)) →
        deserialize_tuple impls.length (runVisit meaning field E ⟨some impl.name_by_index, none⟩ impls.visit) =
          deDef field e.name.str (.indexer vars impl)) := by
  have hv : vars = e.variants.map (fun v => (v.1.str, none)) ∧ (e.variants.map (·.1.str)).Nodup := by
    unfold EnumItem.meaning at h
    split at h
    · next hn =>
      split at h
      · obtain ⟨ix, -, h⟩ := Option.map_eq_some_iff.1 h
        cases h
        exact ⟨rfl, hn.1⟩
      · cases h
    · cases h
  obtain ⟨rfl, hn⟩ := hv
  have hE : Understood meaning ⟨e.name, e.variants.map fun v => ⟨v.1, .unit⟩⟩
      ⟨e.name, e.variants.map fun v => (v.1, none)⟩ := by
    refine ⟨rfl, usable_path hu, ?_, by simpa [Function.comp_def] using hn, ?_⟩
    · simp only [List.forall₂_map_left_iff, List.forall₂_map_right_iff]
      exact List.forall₂_same.2 fun v _ => ⟨rfl, trivial⟩
    · intro v hin tts hf
      obtain ⟨x, -, rfl⟩ := List.mem_map.1 hin
      cases hf
  obtain ⟨ts, impls, r1, r2, -, r4, r5⟩ := C62_indexer_code meaning _ _ hE hi (by simpa using hne)
  have hs : EnumType.shapes ⟨e.name, e.variants.map fun v => (v.1, none)⟩ = e.variants.map fun v => (v.1.str, none) := by
    simp [EnumType.shapes]
  rw [hs] at r4 r5
  exact ⟨ts, impls, _, by rw [derive_indexer, syn_parse_enum e hne, Option.map_some, r1], r2, rfl, hs,
    fun env henv => r4 env impl henv, fun field => r5 field impl⟩

/-- The union above, `enum e { A = 1, B = -2 };`, and types read as the model of the generated code reads them. -/
example : ∃ ts impls, ∃ E : EnumType, derive_union sampleUnion.declaration = some (.ok ts) ∧
    readImpls sampleUnion.name ts = some impls ∧ E.name = sampleUnion.name ∧
    E.shapes = [("V1", some [.u32]), ("Default", some [.u32, .string])] := by
  let meaning : List Token → Option Ty := fun
    | [.ident i] => if i.name = c!"u32" then some .u32 else some .string
    | _ => none
  obtain ⟨ts, impls, E, h1, h2, h3, h4, -⟩ :=
    C62_generated_union_code [] [] sampleUnion _ _ _ rfl (by decide) meaning (by
      intro v hv t ht
      simp only [sampleUnion, List.mem_cons, List.not_mem_nil, or_false] at hv
      rcases hv with rfl | rfl
      · simp only [List.mem_cons, List.not_mem_nil, or_false] at ht
        subst ht
        rfl
      · simp only [List.mem_cons, List.not_mem_nil, or_false] at ht
        rcases ht with rfl | rfl
        · rfl
        · rfl)
  exact ⟨ts, impls, E, h1, h2, h3, h4⟩

def sampleEnum : EnumItem where
  name := ⟨false, c!"E"⟩
  deriveIndexer := true
  variants := [(⟨false, c!"A"⟩, 1), (⟨false, c!"B"⟩, -2)]
  default := ⟨false, c!"A"⟩
  asRef := none
  tryFrom := none
  indexer := some ⟨[(1, ⟨false, c!"A"⟩), (-2, ⟨false, c!"B"⟩)], ⟨false, c!"A"⟩, [(⟨false, c!"A"⟩, 1), (⟨false, c!"B"⟩, -2)]⟩

example : ∃ ts impls, ∃ E : EnumType, derive_indexer sampleEnum.declaration = some (.ok ts) ∧
    readImpls sampleEnum.name ts = some impls ∧ E.name = sampleEnum.name ∧ E.shapes = [("A", none), ("B", none)] :=
  let ⟨ts, impls, E, h1, h2, h3, h4, _⟩ :=
    C62_generated_enum_code sampleEnum _ _ rfl (by decide) (by simp [sampleEnum]) (fun _ => some .i32) rfl
  ⟨ts, impls, E, h1, h2, h3, h4⟩

end Xdr.Rpcgen
