import Verif.Proofs.Ser
/-! # Output lengths are multiples of four -/

namespace Xdr

theorem to_bytes_aligned : ∀ (s : SVal) (bs : Bytes), to_bytes s = .ok bs → 4 ∣ bs.length := by
  have hcat : ∀ {a b : Res Bytes}, (∀ x, a = .ok x → 4 ∣ x.length) →
      (∀ x, b = .ok x → 4 ∣ x.length) → ∀ x, a.cat b = .ok x → 4 ∣ x.length := by
    intro a b ha hb x hx
    obtain ⟨y, z, rfl, rfl, rfl⟩ := Res.cat_eq_ok hx
    have := ha y rfl
    have := hb z rfl
    rw [List.length_append]; omega
  have hconcat : ∀ (rs : List (Res Bytes)), (∀ r ∈ rs, ∀ x, r = .ok x → 4 ∣ x.length) →
      ∀ x, Res.concat rs = .ok x → 4 ∣ x.length := by
    intro rs
    induction rs with
    | nil => intro _ x hx; cases hx; simp
    | cons r rs ih =>
      intro hr
      exact hcat (hr r (by simp)) (ih fun r' h' => hr r' (by simp [h']))
  have hop : ∀ v : Bytes, 4 ∣ (opaqueBytes v).length := by
    intro v
    simp only [opaqueBytes, lenBytes, List.length_append, be32_length, List.length_replicate]
    omega
  have hidx : ∀ i x, indexBytes i = .ok x → 4 ∣ x.length := by
    intro i x hx
    unfold indexBytes at hx
    split at hx
    · cases hx; simp
    · simp at hx
  have hcount : ∀ l x, countBytes l = .ok x → 4 ∣ x.length := by
    intro l x hx
    cases l with
    | none => simp [countBytes] at hx
    | some n => cases hx; simp [lenBytes]
  intro s
  induction h' : sizeOf s using Nat.strongRecOn generalizing s with
  | ind n ih =>
    subst h'
    have hlist : ∀ es : List SVal, sizeOf es < sizeOf s → ∀ x, bytesList es = .ok x → 4 ∣ x.length := by
      intro es hes
      refine hconcat _ ?_
      intro r hr
      obtain ⟨e, he, rfl⟩ := List.mem_map.mp hr
      exact ih (sizeOf e) (Nat.lt_trans (List.sizeOf_lt_of_mem he) hes) e rfl
    have hfields : ∀ es : List (String × SVal), sizeOf es < sizeOf s →
        ∀ x, bytesFields es = .ok x → 4 ∣ x.length := by
      intro es hes
      refine hconcat _ ?_
      intro r hr
      obtain ⟨⟨k, e⟩, he, rfl⟩ := List.mem_map.mp hr
      have h1 := List.sizeOf_lt_of_mem he
      simp only [Prod.mk.sizeOf_spec] at h1
      exact ih (sizeOf e) (by omega) e rfl
    have hentries : ∀ es : List (SVal × SVal), sizeOf es < sizeOf s →
        ∀ x, bytesEntries es = .ok x → 4 ∣ x.length := by
      intro es hes
      refine hconcat _ ?_
      intro r hr
      obtain ⟨⟨k, e⟩, he, rfl⟩ := List.mem_map.mp hr
      have h1 := List.sizeOf_lt_of_mem he
      simp only [Prod.mk.sizeOf_spec] at h1
      exact hcat (ih (sizeOf k) (by omega) k rfl) (ih (sizeOf e) (by omega) e rfl)
    intro bs h
    rw [to_bytes_node] at h
    cases s with
    | str v => cases h; exact hop _
    | bytes v => cases h; exact hop _
    | some v => exact hcat (fun x hx => by cases hx; simp) (ih _ (by simp) v rfl) bs h
    | unit => cases h; simp
    | unitStruct _ => cases h; simp
    | unitVariant n i a => exact hidx _ _ h
    | newtypeStruct n v => exact ih _ (by simp; omega) v rfl bs h
    | newtypeVariant n i a v => exact hcat (hidx i) (ih _ (by simp; omega) v rfl) bs h
    | seq l es => exact hcat (hcount l) (hlist es (by simp; omega)) bs h
    | tuple l es => exact hlist es (by simp; omega) bs h
    | tupleStruct n l es => exact hlist es (by simp; omega) bs h
    | tupleVariant n i a l es => exact hcat (hidx i) (hlist es (by simp; omega)) bs h
    | map l es => exact hcat (hcount l) (hentries es (by simp; omega)) bs h
    | struct n l fs => exact hfields fs (by simp; omega) bs h
    | structVariant n i a l fs => exact hcat (hidx i) (hfields fs (by simp; omega)) bs h
    | fail m => simp [nodeBytes] at h
    | panic p => simp [nodeBytes] at h
    | i128 v => simp [nodeBytes] at h
    | u128 v => simp [nodeBytes] at h
    | _ => cases h; simp

end Xdr
