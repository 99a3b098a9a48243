import Verif.RpcgenProofs.EndToEndRep
/-!
# Discriminants with `XdrUnion`
-/

namespace Xdr.Rpcgen

open Rfc (XVal)

section
variable {ds : List Definition} {cfg : Config} {n : Nat} {file : RustFile} {defs : List (String × Def)}

/-- The generated type of a discriminant has all its values. -/
theorem cond_value (hwf : WellFormed ds) (hrt : cfg.remove_typedef = true)
    (hx : ¬ (cfg.enum_impl_indexer = true ∧ cfg.enum_impl_std_trait = true))
    (hg : gen_code n ds cfg = .ok file) (hd : file.defs = some defs) {cond : TypeSpecifier} {v : Value}
    {k : Int} (hs : Selects ds cond v k) (hok : EnumsOk ds cfg cond) {m : Nat} {rc : RTy} {op : OpaqueType}
    (hrc : convert_primitive_token (convert_type_token (setup_context ds cfg) m) (setup_context ds cfg) cond =
      .ok (rc, op))
    (hty : rc = .u32 ∨ rc = .bool ∨ ∃ e, .enum e ∈ file.types ∧ rc = .path e.name) {disc : Ty}
    (hdisc : rc.meaning file.constants = some disc) {dflt : Bool} {xd : XVal} (hxd : Typed ds dflt cond xd)
    {j : Int} (hj : discriminant xd = some j) :
    ∃ dv, Rep (Xdr.program defs) disc dv xd ∧ IsNumber file disc dv j := by
  induction hs generalizing m with
  | @int signed _ _ _ =>
    simp only [convert_primitive_token, GR.ok.injEq, Prod.mk.injEq] at hrc
    obtain ⟨rfl, rfl⟩ := hrc
    cases signed with
    | true => rcases hty with h | h | ⟨_, -, h⟩ <;> cases h
    | false =>
      cases hdisc
      cases hxd with
      | uint h => exact ⟨_, rep_uint h, isNumber_uint (file := file) h j hj (.inl rfl)⟩
  | false =>
    simp only [convert_primitive_token, GR.ok.injEq, Prod.mk.injEq] at hrc
    obtain ⟨rfl, rfl⟩ := hrc
    cases hdisc
    cases hxd
    exact ⟨_, rep_bool _ _, isNumber_bool (file := file) _ j hj (.inr (.inl rfl))⟩
  | true =>
    simp only [convert_primitive_token, GR.ok.injEq, Prod.mk.injEq] at hrc
    obtain ⟨rfl, rfl⟩ := hrc
    cases hdisc
    cases hxd
    exact ⟨_, rep_bool _ _, isNumber_bool (file := file) _ j hj (.inr (.inl rfl))⟩
  | @enum name e as a k ht _ _ =>
    cases hxd with
    | name h1 h2 =>
      rw [ht] at h1
      cases h1
      obtain ⟨hmem, hname⟩ := typeOf_mem ht
      cases hname
      cases h2 with
      | enum ha hk =>
        cases hj
        rcases resolve_type_ok hrt hrc with ⟨d', hd', -⟩ | ⟨-, id, hid, hr⟩
        · rw [ht] at hd'
          cases hd'
        · cases hr
          cases hdisc
          obtain ⟨ks, hnum, hpos⟩ := hok.enums name as hmem
          obtain ⟨e, i, vid, he, rfl, hv, g1, -⟩ := enum_values hwf hx hg hd hmem hnum hpos ha hk hid
          exact ⟨_, g1 fun hst => hok.positions hst as (.enum ht), e, vid, he, rfl, hv⟩
  | @typedef name nm ts v k ht _ _ ih =>
    cases hxd with
    | name h1 h2 =>
      rw [ht] at h1
      cases h1
      cases h2 with
      | typedef h2 =>
        cases h2 with
        | «variable» h2 =>
          rcases resolve_type_ok hrt hrc with ⟨d', hd', hc⟩ | ⟨hno, -⟩
          · rw [ht] at hd'
            cases hd'
            cases m with
            | zero => cases hc
            | succ m =>
              simp only [convert_type_token, convertTypeWith, GR.bind_eq_ok, GR.ok.injEq, Option.some.injEq] at hc
              obtain ⟨p, hp, rfl⟩ := hc
              exact ih ⟨hok.enums, fun hst as h => hok.positions hst as (.typedef ht h)⟩ hp h2
          · exact absurd ht (hno _)

end
end Xdr.Rpcgen
