import Verif.Proofs.TypeSize
/-! # Where the members of a value are in its forms -/

namespace Xdr.Wire

variable {env : Env}

theorem Forms.split : ∀ {ts₁ : List Ty} {t : Ty} {ts₂ : List Ty} {vs : List Val} {bs : Bytes},
    Forms env (ts₁ ++ t :: ts₂) vs bs → ∃ vs₁ v vs₂ b₁ b₂ b₃, vs = vs₁ ++ v :: vs₂ ∧ bs = b₁ ++ (b₂ ++ b₃) ∧
      vs₁.length = ts₁.length ∧ Forms env ts₁ vs₁ b₁ ∧ Form env t v b₂ ∧ Forms env ts₂ vs₂ b₃
  | [], _, _, _, _, f => by
    cases f with
    | cons f fs => exact ⟨[], _, _, [], _, _, rfl, rfl, rfl, .nil, f, fs⟩
  | _ :: _, _, _, _, _, f => by
    cases f with
    | cons f fs =>
      obtain ⟨vs₁, v, vs₂, b₁, b₂, b₃, rfl, rfl, hl, h1, h2, h3⟩ := fs.split
      exact ⟨_ :: vs₁, v, vs₂, _ ++ b₁, b₂, b₃, rfl, by simp, by simp [hl], .cons f h1, h2, h3⟩

/-- A member after members of one size is at a fixed offset. -/
theorem Forms.offset {ts₁ : List Ty} {t : Ty} {ts₂ : List Ty} {vs : List Val} {bs : Bytes} {k : Nat}
    (hs : ∀ {vs bs}, Forms env ts₁ vs bs → Within k (some k) bs.length) (f : Forms env (ts₁ ++ t :: ts₂) vs bs) :
    ∃ v b rest, vs[ts₁.length]? = some v ∧ bs.drop k = b ++ rest ∧ Form env t v b := by
  obtain ⟨vs₁, v, vs₂, b₁, b₂, b₃, rfl, rfl, hl, h1, h2, h3⟩ := f.split
  have h4 := hs h1
  have h5 : b₁.length = k := by have := h4.1; have := h4.2 _ rfl; omega
  exact ⟨v, b₂, b₃, by rw [← hl]; simp, by rw [← h5]; simp, h2⟩

theorem replicate_at {t : Ty} {n i : Nat} (h : i < n) :
    List.replicate n t = List.replicate i t ++ t :: List.replicate (n - i - 1) t := by
  rw [← List.replicate_succ, List.replicate_append_replicate]
  congr 1
  omega

end Xdr.Wire
