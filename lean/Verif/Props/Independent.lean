import Verif.RpcgenProofs.Local
import Verif.Props.Ends
/-!
# C79: definitions are independent of each other

The source made for a definition depends on the definitions it uses and on no others, and not on the
order in which they stand in the interface.
-/

namespace Xdr.Rpcgen

theorem gen_code_parts {n : Nat} {ds : List Definition} {cfg : Config} {file : RustFile}
    (h : gen_code n ds cfg = .ok file) : ∃ types,
    constants_token (setup_context ds cfg) = .ok file.constants ∧
    GR.mapM (fun x => typeToken (setup_context ds cfg) n x.1 x.2) (setup_context ds cfg).typedefs = .ok types ∧
    file.types = types.flatten := by
  obtain ⟨h1, h2, -⟩ := gen_code_ok.mp h
  obtain ⟨types, h5, h6⟩ := GR.bind_eq_ok.mp h2
  exact ⟨types, h1, h5, (GR.ok.inj h6).symm⟩

theorem gen_code_of {n : Nat} {ds : List Definition} {cfg : Config} {cs : List ConstItem}
    {types : List (List Item)} (h1 : constants_token (setup_context ds cfg) = .ok cs)
    (h2 : GR.mapM (fun x => typeToken (setup_context ds cfg) n x.1 x.2) (setup_context ds cfg).typedefs =
      .ok types) : ∃ file, gen_code n ds cfg = .ok file ∧ file.constants = cs ∧ file.types = types.flatten := by
  have h3 : types_token (setup_context ds cfg) n = .ok types.flatten := by
    rw [types_token, show GR.mapM _ _ = _ from h2, GR.bind]
  exact ⟨⟨_, _, _, cs, types.flatten⟩, gen_code_ok.mpr ⟨h1, h3, rfl, rfl, rfl⟩, rfl, rfl⟩

/-! ## The theorems -/

/-- Leaving out definitions that the others do not use leaves the source of the others as it is. -/
theorem C79_selection {n : Nat} {ds : List Definition} {cfg : Config} {file : RustFile}
    (keep : Definition → Bool)
    (h : ∀ d ∈ ds, keep d = true → ∀ e ∈ ds, keep e = false → ∀ name ∈ d.uses, name ∉ e.defines)
    (hg : gen_code n ds cfg = .ok file) :
    ∃ file', gen_code n (ds.filter keep) cfg = .ok file' ∧
      file'.constants.Sublist file.constants ∧ file'.types.Sublist file.types := by
  obtain ⟨types, h1, h2, h3⟩ := gen_code_parts hg
  have hs : (ds.filter keep).Sublist ds := List.filter_sublist
  obtain ⟨cs', hc, hcs⟩ := mapM_sublist (hs.filterMap keptConst) h1
  obtain ⟨ts', ht, hts⟩ := mapM_sublist (hs.filterMap keptType) h2
  have ht := (mapM_congr (types_same (same_filter keep cfg h) n)).symm.trans ht
  obtain ⟨file', hf, e1, e2⟩ := gen_code_of (n := n) hc ht
  exact ⟨file', hf, e1 ▸ hcs, by rw [e2, h3]; exact hts.flatten_all⟩

/-- Adding definitions at the end, of names that are not used before, adds source at the end. -/
theorem C79_added {n : Nat} {ds more : List Definition} {cfg : Config} {file : RustFile}
    (h : ∀ d ∈ ds, ∀ e ∈ more, ∀ name ∈ d.uses, name ∉ e.defines)
    (hg : gen_code n (ds ++ more) cfg = .ok file) :
    ∃ file', gen_code n ds cfg = .ok file' ∧
      file'.constants <+: file.constants ∧ file'.types <+: file.types := by
  obtain ⟨types, h1, h2, h3⟩ := gen_code_parts hg
  rw [setup_typedefs, List.filterMap_append] at h2
  rw [constants_token, setup_constants, List.filterMap_append] at h1
  obtain ⟨cs', hc, hcs⟩ := mapM_prefix h1
  obtain ⟨ts', ht, hts⟩ := mapM_prefix h2
  have ht := (mapM_congr (types_same (same_append cfg h) n)).symm.trans ht
  obtain ⟨file', hf, e1, e2⟩ := gen_code_of (n := n) hc ht
  refine ⟨file', hf, e1 ▸ hcs, ?_⟩
  obtain ⟨rest, rfl⟩ := hts
  exact ⟨rest.flatten, by rw [e2, h3, List.flatten_append]⟩

/-- The definitions in another order: the same source in another order. -/
theorem C79_order {n : Nat} {ds ds' : List Definition} {cfg : Config} {file : RustFile}
    (hp : ds.Perm ds') (h : NamedOnce ds) (hg : gen_code n ds cfg = .ok file) :
    ∃ file', gen_code n ds' cfg = .ok file' ∧
      file'.constants.Perm file.constants ∧ file'.types.Perm file.types := by
  obtain ⟨types, h1, h2, h3⟩ := gen_code_parts hg
  have h2 := (mapM_congr (types_same (same_perm cfg hp h) n)).trans h2
  obtain ⟨cs', hc, hcs⟩ := mapM_perm (hp.filterMap keptConst) h1
  obtain ⟨ts', ht, hts⟩ := mapM_perm (hp.filterMap keptType) h2
  obtain ⟨file', hf, e1, e2⟩ := gen_code_of (n := n) hc ht
  exact ⟨file', hf, e1 ▸ hcs, by rw [e2, h3]; exact hts.flatten⟩

/-! ## Cases -/

/-- Two enums, a typedef and two structs. -/
def parcels : List Definition := [
  .constant ⟨c!"MAX", .constant (.decimal c!"8")⟩,
  .type (.enum c!"colour" [⟨c!"RED", .constant (.decimal c!"1")⟩, ⟨c!"BLUE", .identifier c!"RED"⟩]),
  .type (.declaration (.variable (.identifier c!"colour") c!"paint")),
  .type (.struct c!"box" [.variable (.identifier c!"paint") c!"side"]),
  .type (.enum c!"size" [⟨c!"SMALL", .constant (.decimal c!"1")⟩, ⟨c!"LARGE", .identifier c!"MAX"⟩]),
  .type (.struct c!"bag" [.variable (.identifier c!"size") c!"volume"])]

theorem parse_parcels : parse (c!"const MAX = 8; enum colour { RED = 1, BLUE = RED }; typedef colour paint; " ++
    c!"struct box { paint side; }; enum size { SMALL = 1, LARGE = MAX }; struct bag { size volume; };") =
    .ok parcels := by
  set_option maxRecDepth 100000 in rfl

/-- What the tool makes of them. -/
theorem gen_parcels : ∃ file, gen_code 10 parcels (Flags.config {}) = .ok file ∧ file.constants.length = 1 ∧
    file.types.length = 4 :=
  ⟨_, by set_option maxRecDepth 100000 in rfl, by decide +kernel, by decide +kernel⟩

/-- Neither a constant, nor an enum of sizes, nor the bags that have one. -/
def withoutSizes : Definition → Bool
  | .constant _ => false
  | .type (.enum name _) => name != c!"size"
  | .type (.struct name _) => name != c!"bag"
  | _ => true

example : ∃ file file', gen_code 10 parcels (Flags.config {}) = .ok file ∧
    gen_code 10 (parcels.filter withoutSizes) (Flags.config {}) = .ok file' ∧
    (parcels.filter withoutSizes).length = 3 ∧
    file'.constants.Sublist file.constants ∧ file'.types.Sublist file.types := by
  obtain ⟨file, h, -⟩ := gen_parcels
  obtain ⟨file', h', hs⟩ := C79_selection withoutSizes (by decide +kernel) h
  exact ⟨file, file', h, h', by decide +kernel, hs⟩

example : ∃ file file', gen_code 10 parcels (Flags.config {}) = .ok file ∧
    gen_code 10 (parcels.take 4) (Flags.config {}) = .ok file' ∧
    file'.constants <+: file.constants ∧ file'.types <+: file.types := by
  obtain ⟨file, h, -⟩ := gen_parcels
  obtain ⟨file', h', hs⟩ := C79_added (ds := parcels.take 4) (more := parcels.drop 4) (by decide +kernel) h
  exact ⟨file, file', h, h', hs⟩

theorem namedOnce_parcels : NamedOnce parcels :=
  ⟨by decide +kernel, by decide +kernel, by decide +kernel⟩

/-- Last definition first. -/
example : ∃ file file', gen_code 10 parcels (Flags.config {}) = .ok file ∧
    gen_code 10 parcels.reverse (Flags.config {}) = .ok file' ∧
    file'.constants.Perm file.constants ∧ file'.types.Perm file.types := by
  obtain ⟨file, h, -⟩ := gen_parcels
  obtain ⟨file', h', hs⟩ := C79_order (List.reverse_perm parcels).symm namedOnce_parcels h
  exact ⟨file, file', h, h', hs⟩

end Xdr.Rpcgen
