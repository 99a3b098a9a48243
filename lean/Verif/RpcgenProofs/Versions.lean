import Verif.Spec.Versions
/-! # Lemmas: the values of an interface are values of its later versions -/

namespace Xdr.Rpcgen

open Rfc (XVal)

theorem Wider.refl (ds : List Definition) (m : Option Value) : Wider ds ds m m := fun v' k' h1 h2 =>
  ⟨v', k', h1, h2, Int.le_refl _⟩

theorem Wider.holds {ds ds' : List Definition} {m m' : Option Value} (h : Wider ds ds' m m') {n : Int}
    (hm : ∀ v k, m = some v → Stands ds v k → n ≤ k) : ∀ v k, m' = some v → Stands ds' v k → n ≤ k := by
  intro v' k' h1 h2
  obtain ⟨v, k, h3, h4, h5⟩ := h v' k' h1 h2
  exact Int.le_trans (hm v k h3 h4) h5

section
variable {dflt : Bool} {ds ds' : List Definition} (hv : Versions dflt ds ds')
include hv

mutual
theorem Typed.later : ∀ {ts x}, Typed ds dflt ts x → Typed ds' dflt ts x
  | _, _, .int h1 h2 => .int h1 h2
  | _, _, .uint h => .uint h
  | _, _, .hyper h1 h2 => .hyper h1 h2
  | _, _, .uhyper h => .uhyper h
  | _, _, .float h => .float h
  | _, _, .double h => .double h
  | _, _, .bool => .bool
  | _, _, .char h1 h2 => .char h1 h2
  | _, _, .uchar h => .uchar h
  | _, _, .short h1 h2 => .short h1 h2
  | _, _, .ushort h => .ushort h
  | _, _, .name h1 h2 => by
    obtain ⟨t', h3, h4⟩ := hv _ _ h1
    exact .name h3 (Defined.later h2 h4)

theorem Defined.later : ∀ {t x t'}, Defined ds dflt t x → DefLater dflt ds ds' t t' → Defined ds' dflt t' x
  | _, _, _, .typedef h, h' => by
    cases h' with
    | typedef h' => exact .typedef (Declared.later h h')
  | _, _, _, .enum ha hk, h' => by
    cases h' with
    | enum h' =>
      obtain ⟨a', ha', hs⟩ := h' _ ha
      exact .enum ha' (hs _ hk)
  | _, _, _, .struct h, h' => by
    cases h' with
    | struct h' => exact .struct (Members.later h h')
  | _, _, _, .arm hc hl hs h1 h2 h3, h' => by
    cases h' with
    | union hb hb' hls _ =>
      rw [hc] at hb
      cases hb
      obtain ⟨l', hl', hs', hd⟩ := hls _ hl
      exact .arm hb' hl' (hs' _ hs) (Typed.later h1) h2 (Declared.later h3 hd)
  | _, _, _, .default hf hc hd h1 h2 hn h3, h' => by
    cases h' with
    | union hb hb' _ hdf =>
      rw [hc] at hb
      cases hb
      obtain ⟨d', hd', hdl, hold⟩ := hdf hf _ hd
      refine .default hf hb' hd' (Typed.later h1) h2 (fun l' hl' hs => ?_) (Declared.later h3 hdl)
      obtain ⟨l, hl, hs'⟩ := hold l' hl' _ hs
      exact hn l hl hs'

theorem Declared.later : ∀ {d x d'}, Declared ds dflt d x → DeclLater ds ds' d d' → Declared ds' dflt d' x
  | _, _, _, .variable h, h' => by
    cases h'
    exact .variable (Typed.later h)
  | _, _, _, .fixedArray hk h, h' => by
    cases h' with
    | fixedArray hs => exact .fixedArray (hs _ hk) (Each.later h)
  | _, _, _, .variableArray hl hm h, h' => by
    cases h' with
    | variableArray hw => exact .variableArray hl (hw.holds hm) (Each.later h)
  | _, _, _, .opaqueFixed hk, h' => by
    cases h' with
    | opaqueFixed hs => exact .opaqueFixed (hs _ hk)
  | _, _, _, .opaqueVar hl hm, h' => by
    cases h' with
    | opaqueVar hw => exact .opaqueVar hl (hw.holds hm)
  | _, _, _, .string hl hm, h' => by
    cases h' with
    | string hw => exact .string hl (hw.holds hm)
  | _, _, _, .absent, h' => by
    cases h'
    exact .absent
  | _, _, _, .present h, h' => by
    cases h'
    exact .present (Typed.later h)
  | _, _, _, .void, h' => by
    cases h'
    exact .void

theorem Each.later : ∀ {ts xs}, Each ds dflt ts xs → Each ds' dflt ts xs
  | _, _, .nil => .nil
  | _, _, .cons h h' => .cons (Typed.later h) (Each.later h')

theorem Members.later : ∀ {ms xs ms'}, Members ds dflt ms xs → List.Forall₂ (DeclLater ds ds') ms ms' →
    Members ds' dflt ms' xs
  | _, _, _, .nil, h => by
    cases h
    exact .nil
  | _, _, _, .cons h h', hm => by
    cases hm with
    | cons hd hms => exact .cons (Declared.later h hd) (Members.later h' hms)
end
end

end Xdr.Rpcgen
