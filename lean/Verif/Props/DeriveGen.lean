import Verif.Props.Derive
import Verif.RpcgenProofs.UnionWire
/-!
# Property C62 for generated enums

The meaning of a generated union (`Rpcgen/Meaning.lean`) is what the macro makes of its enum.
-/

namespace Xdr.Rpcgen

open Xdr.Derive

theorem types_head {cs : List ConstItem} {v : Variant} {o : Option (List Ty)}
    (h : v.types cs = some o) : (v.fields = [] ∧ o = none) ∨
      ∃ t ts ty tys, v.fields = t :: ts ∧ t.meaning cs = some ty ∧ o = some (ty :: tys) := by
  unfold Variant.types at h
  split at h
  · split at h
    · next hf => exact .inl ⟨hf, by simpa using h.symm⟩
    · next hne =>
      cases hf : v.fields with
      | nil => exact absurd hf hne
      | cons t ts =>
        rw [hf] at h
        simp only [tysMeaning] at h
        split at h
        · next h1 h2 => exact .inr ⟨t, ts, _, _, rfl, h1, by simpa using h.symm⟩
        · cases h
  · cases h

theorem valueTy_generated {cs : List ConstItem} {cond : RTy} {d : Ty} (hd : cond.meaning cs = some d)
    {vs : List Variant} {vars : List (String × Option (List Ty))}
    (h : variantsMeaning (·.types cs) vs = some vars)
    (hc : ∀ v ∈ vs, v.fields = [] ∨ v.fields.head? = some cond) (hne : ∃ v ∈ vs, v.fields ≠ []) :
    valueTy vars = some d := by
  have hf := variantsMeaning_ok h
  clear h
  induction hf with
  | nil => obtain ⟨v, hv, _⟩ := hne; simp at hv
  | @cons v w vs vars hx _ ih =>
    obtain ⟨i, h1, -, h2, h3⟩ := hx
    rw [List.forall_mem_cons] at hc
    obtain ⟨n, o⟩ := w
    simp only [valueTy, List.findSome?_cons]
    rcases types_head h3 with ⟨hnil, rfl⟩ | ⟨t, ts, ty, tys, hcons, ht, rfl⟩
    · obtain ⟨v', hv', hne'⟩ := hne
      rcases List.mem_cons.1 hv' with rfl | hv'
      · exact absurd hnil hne'
      · exact ih hc.2 ⟨v', hv', hne'⟩
    · rcases hc.1 with hnil | hhead
      · rw [hcons] at hnil; cases hnil
      · rw [hcons] at hhead
        simp only [List.head?_cons, Option.some.injEq] at hhead
        subst hhead
        rw [hd] at ht
        cases ht
        rfl

/-- C62. For a generated union with `XdrUnion`, the macro expands, and the discriminant it reads has the
type of the switch. -/
theorem C62_generated_union (cs : List ConstItem) (enums : List EnumItem) (u : UnionItem) (d : Ty)
    (vars : List (String × Option (List Ty))) (impl : UnionImpl)
    (h : u.meaning cs enums = some (.union d vars impl)) :
    ∃ e : ItemEnum, e.ident = u.name.str ∧ e.shapes = vars ∧ e.Named ∧
      ∃ c, xdr_union (.enum e) = .ok (c, d) := by
  unfold UnionItem.meaning at h
  split at h
  · next hn =>
    split at h
    · simp at h
    · split at h
      · split at h <;> simp at h
      · cases h
    · split at h
      · next un vars' h1 h2 =>
        split at h
        · next c hc =>
          split at h
          · next hcond =>
            simp only [Option.map_eq_some_iff, Def.union.injEq] at h
            obtain ⟨disc, h3, rfl, rfl, rfl⟩ := h
            refine ⟨⟨u.name.str, itemOf vars'⟩, rfl, shapes_itemOf _ _, ?_, ?_⟩
            · simpa [ItemEnum.Named, itemOf, Function.comp_def] using names_nodup h2 hn
            · simp only [xdr_union, unionVariants_eq, Option.none_or,
                valueTy_generated h3 h2 hcond.2.1 hcond.2.2.2.1]
              exact ⟨_, rfl⟩
          · cases h
        · cases h
      · cases h
  · cases h

/-- C62. For a generated union with `XdrIndexer`, the macro expands. -/
theorem C62_generated_indexer (cs : List ConstItem) (enums : List EnumItem) (u : UnionItem)
    (vars : List (String × Option (List Ty))) (impl : IndexerImpl)
    (h : u.meaning cs enums = some (.indexer vars impl)) :
    ∃ e : ItemEnum, e.ident = u.name.str ∧ e.shapes = vars ∧ e.Named ∧
      ∃ c, xdr_indexer (.enum e) = .ok c := by
  unfold UnionItem.meaning at h
  split at h
  · next hn =>
    split at h
    · simp at h
    · split at h
      · next ix vars' h1 h2 =>
        split at h
        · simp only [Option.some.injEq, Def.indexer.injEq] at h
          obtain ⟨rfl, rfl⟩ := h
          refine ⟨⟨u.name.str, itemOf vars'⟩, rfl, shapes_itemOf _ _, ?_, _, indexerVariants_eq _ _⟩
          simpa [ItemEnum.Named, itemOf, Function.comp_def] using names_nodup h2 hn
        · cases h
      · cases h
    · split at h
      · split at h
        · split at h <;> simp at h
        · cases h
      · cases h
  · cases h

/-- `union u switch (unsigned int k) { case 1: void; default: string s<>; };` with `use-union`. -/
def sampleUnion : UnionItem where
  name := ⟨false, c!"U"⟩
  derive := .union
  variants := [⟨.none, .ident ⟨false, c!"V1"⟩, [.u32]⟩, ⟨.none, defaultTok, [.u32, .string]⟩]
  default := (defaultTok, 2)
  indexer := none
  union := some ⟨some .u32, [(.lit 1, .ident ⟨false, c!"V1"⟩)], .default⟩

example : ∃ impl, sampleUnion.meaning [] [] =
    some (.union .u32 [("V1", some [.u32]), ("Default", some [.u32, .string])] impl) := ⟨_, rfl⟩

end Xdr.Rpcgen
