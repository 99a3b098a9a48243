import Verif.RpcgenProofs.DefaultEnds
import Verif.Props.GenUnionTrait
/-!
# Property C64: `Default::default()` of generated types

`file.default m i` is `Default::default()` of the type `i` of the generated file (`Rpcgen/Default.lean`);
it ends in `.depth` if it needs more than `m` nested calls. `DefaultEnds`, `First`, `Least` and `VariantNamed` are
in `Spec/Defaults.lean`.
-/

namespace Xdr.Rpcgen

open Rfc (XVal)

theorem flags_enum (flags : Flags) :
    ¬ (flags.config.enum_impl_indexer = true ∧ flags.config.enum_impl_std_trait = true) := by
  simp only [Flags.config, Bool.and_eq_true, Bool.not_eq_true']
  rintro ⟨⟨h1, -⟩, h2⟩
  rw [h1] at h2
  cases h2

theorem flags_union (flags : Flags) :
    ¬ (flags.config.union_impl_indexer = true ∧ flags.config.union_impl_union = true) := by
  simp only [Flags.config, Bool.and_eq_true, Bool.not_eq_true']
  rintro ⟨⟨h1, -⟩, h2⟩
  rw [h1] at h2
  cases h2

theorem fromBytes_inv {env : Env} {k : Nat} {t : Ty} {bs : Bytes} {v : Val}
    (h : fromBytes env k t bs = .ok v) : ∃ r, deTy env k t bs = .ok (v, r) := by
  unfold fromBytes from_bytes at h
  cases hd : deTy env k t bs with
  | ok p =>
    obtain ⟨w, r⟩ := p
    rw [hd] at h
    simp only at h
    split at h
    · cases h
      exact ⟨_, rfl⟩
    · cases h
  | err e => rw [hd] at h; cases h
  | panic p => rw [hd] at h; cases h
  | depth => rw [hd] at h; cases h

section
variable {ds : List Definition} {flags : Flags} {n : Nat} {file : RustFile}
  (hg : gen_code n ds flags.config = .ok file) {defs : List (String × Def)} (hd : file.defs = some defs)
include hg hd

/-- C64. The default of a generated type is a value of the type; nothing but an endless recursion keeps it
from being returned. -/
theorem C64_value {i : Item} (hi : i ∈ file.types) (m : Nat) :
    (∃ v, file.default m i.name = .ok v ∧ HasTy (Xdr.program defs) (.named i.name.str) v) ∨
      file.default m i.name = .depth := by
  have h := (file_default (C := False) (flags_enum flags) (flags_union flags) hg hd (fun c => c.elim) m).named i hi
  cases hr : file.default m i.name with
  | ok v =>
    rw [hr] at h
    exact .inl ⟨v, rfl, h.hasTy⟩
  | depth => exact .inr rfl
  | err e => rw [hr] at h; exact h.elim
  | panic p => rw [hr] at h; exact h.elim

/-- C64. The default is returned, whatever the bound on nested calls provided it is large enough, exactly if
no endless chain of types, each inside the default of the one before, starts at the type. -/
theorem C64_ends (i : RIdent) :
    (∃ m v, ∀ m', m ≤ m' → file.default m' i = .ok v) ↔ DefaultEnds file i := by
  rw [← defaultEnds_iff (flags_union flags) hg hd]
  constructor
  · rintro ⟨m, v, h⟩
    exact ⟨m, v, h m (Nat.le_refl _)⟩
  · rintro ⟨m, v, h⟩
    exact ⟨m, v, fun m' hm => default_mono file hm h⟩

/-- C64. If every one of some types has another of them inside its default, none has a default. -/
theorem C64_endless {p : RIdent → Prop} (hp : ∀ i ∈ file.types, p i.name → ∃ j ∈ i.inside file.constants, p j)
    {i : Item} (hi : i ∈ file.types) (hpi : p i.name) (m : Nat) : file.default m i.name = .depth := by
  rcases C64_value hg hd hi m with ⟨v, hv, -⟩ | h
  · have he : DefaultEnds file i.name := (defaultEnds_iff (flags_union flags) hg hd _).1 ⟨m, v, hv⟩
    exfalso
    clear hv
    generalize i.name = x at he hpi
    induction he with
    | @item i hi _ ih =>
      obtain ⟨j, hj, hpj⟩ := hp i hi hpi
      exact ih j hj hpj
  · exact h

/-- C64. The default of an enum is its member with the least number. -/
theorem C64_enum (hwf : WellFormed ds) {name : Str} {as : List Assign} {ks : List Int}
    (hm : .type (.enum name as) ∈ ds) (hnum : Numbered ds as ks) :
    ∃ ty a k id i, upper_camel_case_ident name = .ok ty ∧ (a, k) ∈ as.zip ks ∧ Least k ks ∧
      upper_camel_case_ident a.identifier = .ok id ∧ VariantNamed (Xdr.program defs) ty.str i id.str ∧
      ∀ m, file.default (m + 1) ty = .ok (.variant i []) := by
  obtain ⟨e, he, hmem⟩ := gen_code_enum hg hm
  obtain ⟨a, k, ha, hk, hid, hv⟩ := enum_default_least hwf hm hnum he
  obtain ⟨d, hd1, hd2⟩ := defs_lookup hd hmem
  obtain ⟨hnd, hcase⟩ := enum_meaning_ok hd1
  obtain ⟨i, hi, hdef⟩ := enumItem_default hnd hv
  have hname : upper_camel_case_ident name = .ok e.name := by
    obtain ⟨ms, -, -, -, -, -, -, -, -, h8, -⟩ :=
      enum_members hwf (members_ok hwf hm) hnum.stands hnum.distinct hnum.range he
    exact h8
  refine ⟨e.name, a, k, e.default, i, hname, ha, hk, hid, ?_, fun m => ?_⟩
  · rcases hcase with ⟨-, rfl⟩ | ⟨-, ix, -, rfl⟩
    · exact .inl ⟨_, Shape.unit, hd2, by simp [hi]⟩
    · exact .inr (.inl ⟨_, none, _, hd2, by simp [hi]⟩)
  · have := file_default_succ (defs_ok hd).1 hmem m
    simp only [Item.name, Item.defaultVal, hdef] at this
    exact this

/-- C64. The default of a union is its default arm, and without one the case of the least label. -/
theorem C64_union (hwf : WellFormed ds) (hu : Unambiguous ds) {name : Str} {body : UnionBody}
    (hm : .type (.union name body) ∈ ds) {cond : TypeSpecifier} {nm : Str} {ks : List Int}
    (hcond : body.cond = .variable cond nm) (hlab : Labelled ds cond body.labels ks) :
    ∃ ty vn i, upper_camel_case_ident name = .ok ty ∧ VariantNamed (Xdr.program defs) ty.str i vn ∧
      (body.default.isSome → vn = "Default") ∧
      (body.default = none → ∃ l k a id, (l, k) ∈ body.labels.zip ks ∧ Least k ks ∧ l.1 = .identifier a ∧
        upper_camel_case_ident a = .ok id ∧ vn = id.str) ∧
      ∀ m v, file.default m ty = .ok v → ∃ vs, v = .variant i vs := by
  obtain ⟨u, hconv, hmem⟩ := gen_code_union hg hm
  obtain ⟨h1, h2⟩ := union_default_case hwf hu hm hcond hlab hconv
  obtain ⟨d, hd1, hd2⟩ := defs_lookup hd hmem
  obtain ⟨v, hv⟩ := gen_union_dflt (flags_union flags) hg hmem hd1
  obtain ⟨hnd, hvars⟩ := union_variants hd1
  obtain ⟨i, hiv, hdv⟩ := hv.pos hnd
  obtain ⟨⟨id, hid, hnamed⟩, -⟩ := hvars i v hiv
  obtain ⟨_, _, _, hname, -⟩ := convert_union_ok hconv
  have hvn := hv.name
  rw [hid] at hvn
  refine ⟨u.name, id.str, i, hname, hnamed _ _ hd2, fun hb => ?_, fun hb => ?_, fun m w hw => ?_⟩
  · rw [h1 hb] at hvn
    cases hvn
    rfl
  · obtain ⟨l, k, hl, hk, htok⟩ := h2 hb
    obtain ⟨a, ha, hida⟩ := case_label htok hvn.symm
    exact ⟨l, k, a, id, hl, hk, ha, hida, rfl⟩
  · obtain ⟨m', -, hval⟩ := file_default_item (defs_ok hd).1 hmem hw
    simp only [Item.defaultVal, hdv, resBind_ok] at hval
    obtain ⟨vs, -, hval⟩ := hval
    cases hval
    exact ⟨vs, rfl⟩

omit hd in
/-- The union of the file an item comes from. -/
theorem union_source {u : UnionItem} (hu : .union u ∈ file.types) :
    ∃ name body, .type (.union name body) ∈ ds ∧
      convert_union_token (setup_context ds flags.config) n name body = .ok u := by
  obtain ⟨name, td, l, hmem, ht, hl⟩ := types_token_mem (gen_code_ok.1 hg).2.1 hu
  have := typeToken_item ht hl
  cases td with
  | union nm b =>
    simp only at this
    obtain ⟨d, hd, he⟩ := List.mem_filterMap.1 hmem
    cases d with
    | type t =>
      cases t with
      | union nm' b' =>
        cases he
        exact ⟨_, _, hd, this⟩
      | declaration d =>
        simp only at he
        cases hdn : d.name <;> rw [hdn] at he <;> cases he
      | _ => cases he
    | _ => cases he
  | declaration _ => exact this.elim
  | struct _ _ => exact this.elim
  | enum _ _ => exact this.elim

theorem default_roundtrip (hr : Reads file) {i : Item} (hi : i ∈ file.types) {m : Nat} {v : Val}
    (hv : file.default m i.name = .ok v) : ∃ bs, toBytes (Xdr.program defs) (.named i.name.str) v = .ok bs ∧
      ∀ k, v.depth < k → fromBytes (Xdr.program defs) k (.named i.name.str) bs = .ok v := by
  have h := (file_default (C := True) (flags_enum flags) (flags_union flags) hg hd (fun _ => hr) m).named i hi
  rw [hv] at h
  obtain ⟨hf, y, bs, hy, hb⟩ := h.back trivial
  have hw := C03_rfc4506_sound _ _ _ _ _ h.hasTy hy hb
  exact ⟨bs, hw, fun k hk => C01_roundtrip _ _ _ _ _ hf hk hw⟩

/-- C64. Without `--use-union`, a default is written and read back. With `--use-indexer` or
`--use-extra-trait` this is said of files without default arms only; `C64_indexer_violated` is about the
others. -/
theorem C64_roundtrip_partial (huu : flags.use_union = false)
    (hix : flags.use_indexer = true ∨ flags.use_extra_trait = true →
      ∀ name body, .type (.union name body) ∈ ds → body.default = none)
    (hsize : ∀ i ∈ file.types, i.variantCount ≤ 2147483648) {i : Item} (hi : i ∈ file.types) {m : Nat} {v : Val}
    (hv : file.default m i.name = .ok v) : ∃ bs, toBytes (Xdr.program defs) (.named i.name.str) v = .ok bs ∧
      ∀ k, v.depth < k → fromBytes (Xdr.program defs) k (.named i.name.str) bs = .ok v := by
  refine default_roundtrip hg hd ⟨fun e he => hsize _ he, fun u hu => hsize _ hu, fun u hu hder ix hu' => ?_,
    fun u hu hder => ?_⟩ hi hv
  · obtain ⟨name, body, hm, hconv⟩ := union_source hg hu
    obtain ⟨_, _, _, -, -, -, -, hder', -, hix', -⟩ := convert_union_ok hconv
    rw [hu'] at hix'
    have hci : (setup_context ds flags.config).config = flags.config := rfl
    rw [hci] at hix'
    split at hix'
    · next hc =>
      cases hix'
      have : flags.use_indexer = true ∨ flags.use_extra_trait = true := by
        simp only [Flags.config, Bool.and_eq_true, Bool.or_eq_true] at hc
        exact hc.2.symm
      simp [hix this name body hm]
    · cases hix'
  · obtain ⟨name, body, hm, hconv⟩ := union_source hg hu
    obtain ⟨_, _, _, -, -, -, -, hder', -⟩ := convert_union_ok hconv
    have hcu : (setup_context ds flags.config).config.union_impl_union = false := huu
    rw [hder, hcu] at hder'
    split at hder' <;> cases hder'

/-- C64. With `--use-union`, defaults are written and read back if in every union the default discriminant
selects the default variant. -/
theorem C64_roundtrip_union_partial (hwf : WellFormed ds) (hu : Unambiguous ds) (huu : flags.use_union = true)
    (hen : ∀ e as, .type (.enum e as) ∈ ds → ∃ ks, Numbered ds as ks)
    (hsel : ∀ name body, .type (.union name body) ∈ ds → DefaultSelects ds body)
    (hsize : ∀ i ∈ file.types, i.variantCount ≤ 2147483648) {i : Item} (hi : i ∈ file.types) {m : Nat} {v : Val}
    (hv : file.default m i.name = .ok v) : ∃ bs, toBytes (Xdr.program defs) (.named i.name.str) v = .ok bs ∧
      ∀ k, v.depth < k → fromBytes (Xdr.program defs) k (.named i.name.str) bs = .ok v := by
  have hci : flags.config.union_impl_indexer = false := by simp [Flags.config, huu]
  refine default_roundtrip hg hd ⟨fun e he => hsize _ he, fun u hu => hsize _ hu, fun u hu' hder ix hix => ?_,
    fun u hu' hder un c m dv hun hc hdv => ?_⟩ hi hv
  · obtain ⟨name, body, hm, hconv⟩ := union_source hg hu'
    obtain ⟨_, _, _, -, -, -, -, -, -, hix', -⟩ := convert_union_ok hconv
    have hci' : (setup_context ds flags.config).config.union_impl_indexer = false := hci
    rw [hix, hci'] at hix'
    cases hix'
  · obtain ⟨name, body, hm, hconv⟩ := union_source hg hu'
    obtain ⟨cond, nm, ks, k, hcond, hlab, hf, h1, h2⟩ := hsel name body hm
    obtain ⟨g1, g2⟩ := union_default_selects hwf hu rfl hci huu hg hd hm hcond hlab hen hf hconv hu' hun hc hdv
    obtain ⟨d1, d2⟩ := union_default_case hwf hu hm hcond hlab hconv
    cases hb : body.default with
    | some d =>
      rw [hb] at h1 d1 g2
      rw [g2 (h1 rfl), d1 rfl]
      rfl
    | none =>
      obtain ⟨l, k', hl, hk', htok⟩ := d2 hb
      have hkk := (h2 hb).unique hk'
      subst hkk
      obtain ⟨a, id, ha, hid, hn⟩ := g1 l hl
      rw [hn]
      rw [ha] at htok
      simp only [convert_value_token, GR.bind_eq_ok, GR.ok.injEq] at htok
      obtain ⟨id', hid', htok⟩ := htok
      simp only [if_true] at hid'
      rw [hid] at hid'
      cases hid'
      rw [← htok]
      rfl

/-- C64 is false with `--use-union` if the default discriminant does not select the default variant: then no
input at all is read as the default. -/
theorem C64_union_violated (hwf : WellFormed ds) (hu : Unambiguous ds) (huu : flags.use_union = true)
    (hen : ∀ e as, .type (.enum e as) ∈ ds → ∃ ks, Numbered ds as ks) {name : Str} {body : UnionBody}
    (hm : .type (.union name body) ∈ ds) {cond : TypeSpecifier} {nm : Str} {ks : List Int} {k0 : Int}
    (hcond : body.cond = .variable cond nm) (hlab : Labelled ds cond body.labels ks) (hf : First ds cond k0)
    (hnot : ¬ ((body.default.isSome → k0 ∉ ks) ∧ (body.default = none → Least k0 ks)))
    {ty : RIdent} (hty : upper_camel_case_ident name = .ok ty) {m : Nat} {v : Val}
    (hv : file.default m ty = .ok v) (k : Nat) (bs : Bytes) :
    fromBytes (Xdr.program defs) k (.named ty.str) bs ≠ .ok v := by
  intro hread
  have hci : flags.config.union_impl_indexer = false := by simp [Flags.config, huu]
  obtain ⟨u, hconv, hmem⟩ := gen_code_union hg hm
  obtain ⟨ct, acc, dflt, hname, hcases, hdflt, -, hder, hvars, -⟩ := convert_union_ok hconv
  rw [hty] at hname
  cases hname
  have hder' : u.derive = .union := by
    have e1 : (setup_context ds flags.config).config.union_impl_indexer = false := hci
    have e2 : (setup_context ds flags.config).config.union_impl_union = true := huu
    rw [hder, e1, e2]
    rfl
  obtain ⟨d, hd1, hd2⟩ := defs_lookup hd hmem
  obtain ⟨w, hw⟩ := gen_union_dflt (flags_union flags) hg hmem hd1
  obtain ⟨m', -, hval⟩ := file_default_item (defs_ok hd).1 hmem hv
  obtain ⟨un, c, i, dv, vs, id, hun, hc, rfl, hi, hid, hdv⟩ := union_default_head hw hd1 hder' hval
  obtain ⟨hnd, hnames⟩ := union_variants hd1
  obtain ⟨⟨id', hid', hnamed⟩, -⟩ := hnames i w hi
  rw [hid] at hid'
  cases hid'
  obtain ⟨r, hread⟩ := fromBytes_inv hread
  obtain ⟨g1, g2⟩ := union_default_selects hwf hu rfl hci huu hg hd hm hcond hlab hen hf hconv hmem hun hc hdv
  obtain ⟨d1, d2⟩ := union_default_case hwf hu hm hcond hlab hconv
  -- the default discriminant selects the variant of the default
  have hsel : (unionUnionImpl file.enums un).name_by_value dv = .ok id.str := by
    obtain ⟨-, un', vars, c', disc, hun', -, -, -, -, -, rfl⟩ := union_meaning_union hd1 hder'
    rw [hun] at hun'
    cases hun'
    obtain ⟨vn, fs, h1, h2⟩ := union_read_inv hd2 hread
    rcases hnamed _ _ hd2 with ⟨_, _, h, -⟩ | ⟨_, _, _, h, -⟩ | ⟨_, _, _, _, h, h3⟩
    · simp only [Item.name] at hd2 h
      rw [hd2] at h
      cases h
    · simp only [Item.name] at hd2 h
      rw [hd2] at h
      cases h
    · simp only [Item.name] at hd2 h
      rw [hd2] at h
      cases h
      rw [h2] at h3
      cases h3
      exact h1
  have hdn : u.default.1 = .ident id := by rw [← hw.name, hid]
  obtain ⟨-, cs, hcs⟩ := union_cases hwf hu hcond hlab (labels_ok hwf hm) hcases
  have hcomp : (setup_context ds flags.config).config.union_complement_index = false := by
    show flags.config.union_complement_index = false
    simp [Config.union_complement_index, Flags.config, huu]
  have hav := hcs.variants hcomp
  -- the case of a label
  have hcase : ∀ {l k}, (l, k) ∈ body.labels.zip ks → ∃ c, (c, k) ∈ cs ∧ c.value.name = c.variant ∧
      convert_value_token .u32 l.1 true = .ok c.variant := by
    intro l k hl
    obtain ⟨c, hc, hcc⟩ := hcs.all l k hl
    obtain ⟨o, h1, -, -, h2, -⟩ := convert_case_ok hcc
    exact ⟨c, hc, h2, h1⟩
  have htok : ∀ {a : Str} {x : RIdent} {t : Tok}, upper_camel_case_ident a = .ok x →
      convert_value_token .u32 (.identifier a) true = .ok t → t = .ident x := by
    intro a x t h1 h2
    simp only [convert_value_token, GR.bind_eq_ok, GR.ok.injEq, if_true] at h2
    obtain ⟨y, hy, rfl⟩ := h2
    rw [h1] at hy
    cases hy
    rfl
  rw [hvars, hav] at hnd
  apply hnot
  constructor
  · intro hb hk0
    obtain ⟨l, hl⟩ := zip_mem_right hlab.selects.length_eq hk0
    obtain ⟨a, x, ha, hx, hn⟩ := g1 l hl
    obtain ⟨c1, hc1, hc2, hc3⟩ := hcase hl
    rw [ha] at hc3
    have := htok hx hc3
    rw [hsel, Res.ok.injEq] at hn
    obtain ⟨dd, hb⟩ := Option.isSome_iff_exists.1 hb
    rw [hb] at hdflt
    simp only [unionDefault, GR.bind_eq_ok, GR.ok.injEq] at hdflt
    obtain ⟨o, -, rfl⟩ := hdflt
    simp only [Option.map_some, Option.toList_some, List.map_append, List.map_cons, List.map_nil] at hnd
    have hdj := (List.nodup_append.1 hnd).2.2 c1.value.name.str
      (List.mem_map.2 ⟨_, List.mem_map.2 ⟨_, hc1, rfl⟩, rfl⟩) defaultTok.str (by simp)
    apply hdj
    have e : u.default.1 = defaultTok := d1 (by simp [hb])
    rw [← e, hdn, hc2, this]
    exact hn.symm
  · intro hb
    obtain ⟨l', k', hl', hk', htok'⟩ := d2 hb
    by_cases hk0 : k0 ∈ ks
    · obtain ⟨l, hl⟩ := zip_mem_right hlab.selects.length_eq hk0
      obtain ⟨a, x, ha, hx, hn⟩ := g1 l hl
      obtain ⟨c1, hc1, hc2, hc3⟩ := hcase hl
      obtain ⟨c4, hc4, hc5, hc6⟩ := hcase hl'
      rw [ha] at hc3
      have e1 := htok hx hc3
      rw [hsel, Res.ok.injEq] at hn
      rw [htok', hdn, GR.ok.injEq] at hc6
      have hnd' := (List.nodup_append.1 (by rw [List.map_append] at hnd; exact hnd)).1
      rw [List.map_map] at hnd'
      have := List.inj_on_of_nodup_map hnd' hc1 hc4 (by
        simp only [Function.comp, hc2, hc5, e1, ← hc6, Tok.str]
        exact hn.symm)
      cases this
      exact hk'
    · rw [g2 hk0, hb] at hsel
      cases hsel

/-- C64 is false with `--use-indexer` and `--use-extra-trait` for a union with default arm: writing the
default panics. -/
theorem C64_indexer_violated (hwf : WellFormed ds) (hu : Unambiguous ds) (huu : flags.use_union = false)
    (hix : flags.use_indexer = true ∨ flags.use_extra_trait = true) {name : Str} {body : UnionBody}
    (hm : .type (.union name body) ∈ ds) {cond : TypeSpecifier} {nm : Str} {ks : List Int}
    (hcond : body.cond = .variable cond nm) (hlab : Labelled ds cond body.labels ks)
    (hdd : body.default.isSome) {ty : RIdent} (hty : upper_camel_case_ident name = .ok ty) {m : Nat} {v : Val}
    (hv : file.default m ty = .ok v) : ∃ p, toBytes (Xdr.program defs) (.named ty.str) v = .panic p := by
  have hci : flags.config.union_impl_indexer = true := by
    simp only [Flags.config, huu, Bool.not_false, Bool.true_and, Bool.or_eq_true]
    exact hix.symm
  obtain ⟨ty', vars, impl, h1, h2, h3, -, -, h6⟩ := indexer_case hwf hu hci huu hg hd hm hcond hlab
  rw [hty] at h1
  cases h1
  obtain ⟨d, hdd'⟩ := Option.isSome_iff_exists.1 hdd
  obtain ⟨i, fs, hi, ht, hp⟩ := h6 d hdd'
  obtain ⟨ty', vn, j, g1, g2, g3, -, g4⟩ := C64_union hg hd hwf hu hm hcond hlab
  rw [hty] at g1
  cases g1
  cases g3 hdd
  obtain ⟨vs, rfl⟩ := g4 m v hv
  obtain ⟨fs', hj⟩ : ∃ fs', vars[j]? = some ("Default", fs') := by
    rcases g2 with ⟨_, _, h, -⟩ | ⟨_, fs', _, h, h3⟩ | ⟨_, _, _, _, h, h3⟩
    · rw [h2] at h
      cases h
    · rw [h2] at h
      cases h
      exact ⟨fs', h3⟩
    · rw [h2] at h
      cases h
  obtain rfl : i = j := by
    obtain ⟨hlt, hv1⟩ := List.getElem?_eq_some_iff.1 hi
    obtain ⟨hlt', hv2⟩ := List.getElem?_eq_some_iff.1 hj
    have := (List.nodup_iff_injective_getElem.1 h3) (a₁ := ⟨i, by simpa using hlt⟩)
      (a₂ := ⟨j, by simpa using hlt'⟩) (by simp [hv1, hv2])
    simpa using this
  obtain ⟨u, hconv, hmem⟩ := gen_code_union hg hm
  obtain ⟨_, _, _, hname, -⟩ := convert_union_ok hconv
  rw [hty] at hname
  cases hname
  rcases C64_value hg hd hmem m with ⟨w, hw, hvs⟩ | hw
  · simp only [Item.name] at hw hvs
    rw [hv] at hw
    cases hw
    simp only [HasTy, present, h2, hi] at hvs
    cases fs with
    | none =>
      cases vs with
      | nil =>
        simp only [toBytes, present, h2, hi, List.isEmpty_nil, if_true, hp, SVal.ofUser]
        exact ⟨_, rfl⟩
      | cons v vs => simp at hvs
    | some ts =>
      simp only [Option.isSome_map] at hvs
      obtain ⟨ss, hss⟩ := Option.isSome_iff_exists.1 hvs
      simp only [toBytes, present, h2, hi, hss, Option.map_some, hp, SVal.ofUser]
      exact ⟨_, rfl⟩
  · simp only [Item.name] at hw
    rw [hv] at hw
    cases hw

end

/-! The hypotheses hold of the sample interfaces. -/

/-- The interface is accepted, and the type has a default. -/
def defaulted (n m : Nat) (ds : List Definition) (cfg : Config) (i : RIdent) : Bool :=
  match gen_code n ds cfg with
  | .ok f => f.defs.isSome && f.types.any (fun t => t.name = i) && f.types.all (fun t => t.variantCount ≤ 2147483648) &&
    match f.default m i with
    | .ok _ => true
    | _ => false
  | _ => false

theorem defaulted_ok {n m : Nat} {ds : List Definition} {cfg : Config} {i : RIdent}
    (h : defaulted n m ds cfg i = true) :
    ∃ file defs it v, gen_code n ds cfg = .ok file ∧ file.defs = some defs ∧ it ∈ file.types ∧ it.name = i ∧
      (∀ t ∈ file.types, t.variantCount ≤ 2147483648) ∧ file.default m i = .ok v := by
  unfold defaulted at h
  split at h
  · next f hf =>
    simp only [Bool.and_eq_true, List.any_eq_true, List.all_eq_true, decide_eq_true_eq] at h
    obtain ⟨⟨⟨h1, it, h2, h3⟩, h4⟩, h5⟩ := h
    obtain ⟨defs, hd⟩ := Option.isSome_iff_exists.1 h1
    split at h5
    · next v hv => exact ⟨f, defs, it, v, hf, hd, h2, h3, h4, hv⟩
    · cases h5
  · cases h

/-- Without flags: the default of a union with default arm is that arm, and is written and read back. -/
example : ∃ file defs i vs bs, gen_code 9 catalogue (Flags.config {}) = .ok file ∧ file.defs = some defs ∧
    DefaultEnds file ⟨false, c!"Item"⟩ ∧ VariantNamed (Xdr.program defs) "Item" i "Default" ∧
    file.default 3 ⟨false, c!"Item"⟩ = .ok (.variant i vs) ∧
    HasTy (Xdr.program defs) (.named "Item") (.variant i vs) ∧
    toBytes (Xdr.program defs) (.named "Item") (.variant i vs) = .ok bs ∧
    ∀ k, (Val.variant i vs).depth < k →
      fromBytes (Xdr.program defs) k (.named "Item") bs = .ok (.variant i vs) := by
  obtain ⟨file, defs, it, v, hg, hd, hit, hname, hsize, hv⟩ := defaulted_ok (n := 9) (m := 3) (ds := catalogue)
    (cfg := Flags.config {}) (i := ⟨false, c!"Item"⟩) (by decide +kernel)
  obtain ⟨ty, vn, i, h1, h2, h3, -, h4⟩ := C64_union hg hd (wellFormed_parse parse_catalogue)
    (supported_catalogue {}).unambiguous item_mem rfl labelled_catalogue
  cases h1
  cases h3 rfl
  obtain ⟨vs, rfl⟩ := h4 3 v hv
  have hv' := hv
  rw [← hname] at hv'
  obtain ⟨bs, h5, h6⟩ := C64_roundtrip_partial hg hd rfl (by simp) hsize hit hv'
  rw [hname] at h5 h6
  have hty : HasTy (Xdr.program defs) (.named "Item") (.variant i vs) := by
    rcases C64_value hg hd hit 3 with ⟨w, hw, h7⟩ | h7
    · rw [hname, hv] at hw
      cases hw
      rw [hname] at h7
      exact h7
    · rw [hv'] at h7
      cases h7
  exact ⟨file, defs, i, vs, bs, hg, hd, (C64_ends hg hd _).1 ⟨3, _, fun m' hm => default_mono file hm hv⟩, h2,
    hv, hty, h5, h6⟩

/-- The default of an enum: `blob`, of number 0, is declared third. -/
example : ∃ file defs i, gen_code 9 catalogue (Flags.config { use_std_trait := true }) = .ok file ∧
    file.defs = some defs ∧ VariantNamed (Xdr.program defs) "Kind" i "Blob" ∧
    ∀ m, file.default (m + 1) ⟨false, c!"Kind"⟩ = .ok (.variant i []) := by
  obtain ⟨file, defs, hg, hd⟩ := accepted_ok (n := 9) (ds := catalogue)
    (cfg := Flags.config { use_std_trait := true }) (by decide +kernel)
  obtain ⟨ty, a, k, id, i, h1, h2, h3, h4, h5, h6⟩ := C64_enum hg hd (wellFormed_parse parse_catalogue)
    (name := c!"kind") (as := catalogueKinds) (by simp [catalogue]) numbered_catalogue
  cases h1
  have hk : k = 0 := h3.unique ⟨by decide, by decide⟩
  subst hk
  have ha : a = ⟨c!"blob", .constant (.decimal c!"0")⟩ := by
    simp [catalogueKinds] at h2
    exact h2
  subst ha
  cases h4
  exact ⟨file, defs, i, hg, hd, h5, h6⟩

/-- Without default arm: `TEXT`, of number 1, is declared second. -/
example : ∃ file defs i, gen_code 9 shapes (Flags.config { use_indexer := true }) = .ok file ∧
    file.defs = some defs ∧ VariantNamed (Xdr.program defs) "Shape" i "Text" ∧
    ∀ m v, file.default m ⟨false, c!"Shape"⟩ = .ok v → ∃ vs, v = .variant i vs := by
  obtain ⟨file, defs, hg, hd⟩ := accepted_ok (n := 9) (ds := shapes)
    (cfg := Flags.config { use_indexer := true }) (by decide +kernel)
  obtain ⟨ty, vn, i, h1, h2, -, h3, h4⟩ := C64_union hg hd (wellFormed_parse parse_shapes) unambiguous_shapes
    shape_mem rfl labelled_shapes
  cases h1
  obtain ⟨l, k, a, id, h5, h6, h7, h8, rfl⟩ := h3 rfl
  have hk : k = 1 := h6.unique ⟨by decide, by decide⟩
  subst hk
  have hl : l = (.identifier c!"text", .string c!"s" none) := by
    simp [shapeBody, UnionBody.labels, UnionBody.specs, CaseSpec.values, CaseSpec.declaration] at h5
    exact h5
  subst hl
  cases h7
  cases h8
  exact ⟨file, defs, i, hg, hd, h2, h4⟩

/-- A struct that holds itself. rustc accepts it, as the member is boxed; its default never ends. -/
def endless : List Definition := [.type (.struct c!"s" [.variable (.int true) c!"a", .variable (.identifier c!"s") c!"next"])]

theorem parse_endless : parse c!"struct s { int a; s next; };" = .ok endless := rfl

def endlessFile : RustFile := { useTuple := false, useIndexer := false, useUnion := false, constants := [], types := [.struct { name := ⟨false, c!"S"⟩, fields :=
  [(.none, ⟨false, c!"a"⟩, .i32), (.none, ⟨false, c!"next"⟩, .box (.path ⟨false, c!"S"⟩))] }] }

/-- C64 is false of a type that holds itself: its default overflows the stack. -/
theorem C64_endless_violated : ∃ s ds file defs, parse s = .ok ds ∧ gen_code 9 ds (Flags.config {}) = .ok file ∧
    file.defs = some defs ∧ ¬ DefaultEnds file ⟨false, c!"S"⟩ ∧ ∀ m, file.default m ⟨false, c!"S"⟩ = .depth := by
  have hg : gen_code 9 endless (Flags.config {}) = .ok endlessFile := rfl
  obtain ⟨defs, hd⟩ := Option.isSome_iff_exists.1 (show endlessFile.defs.isSome = true by decide +kernel)
  have h : ∀ m, endlessFile.default m ⟨false, c!"S"⟩ = .depth := fun m =>
    C64_endless hg hd (p := fun i => i = ⟨false, c!"S"⟩) (by
      intro i hi _
      simp only [endlessFile, List.mem_singleton] at hi
      subst hi
      exact ⟨_, by simp [Item.inside, insideField, RTy.inside], rfl⟩)
      (i := .struct { name := ⟨false, c!"S"⟩, fields :=
        [(.none, ⟨false, c!"a"⟩, .i32), (.none, ⟨false, c!"next"⟩, .box (.path ⟨false, c!"S"⟩))] })
      (by simp [endlessFile]) rfl m
  refine ⟨_, _, _, defs, parse_endless, hg, hd, fun he => ?_, h⟩
  obtain ⟨m, v, hv⟩ := (C64_ends hg hd _).2 he
  have := hv m (Nat.le_refl _)
  rw [h m] at this
  cases this

/-- With `--use-union`, an interface whose defaults are read back. -/
def openText : Str := c!"union maybe switch (unsigned k) { case ONE: hyper h; default: int i; }; const ONE = 1;"

def openBody : UnionBody := ⟨.variable (.int false) c!"k",
  [⟨[.identifier c!"ONE"], .variable (.hyper true) c!"h"⟩], some (.variable (.int true) c!"i")⟩

def opened : List Definition := [.type (.union c!"maybe" openBody),
  .constant ⟨c!"ONE", .constant (.decimal c!"1")⟩]

theorem parse_opened : parse openText = .ok opened := by
  set_option maxRecDepth 100000 in rfl

theorem labelled_opened : Labelled opened (.int false) openBody.labels [1] where
  selects := .cons (.int ⟨_, .name rfl (.literal _), rfl⟩) .nil
  distinct := by decide
  range := by decide

example : ∃ file defs v bs, gen_code 9 opened (Flags.config { use_union := true }) = .ok file ∧
    file.defs = some defs ∧ file.default 3 ⟨false, c!"Maybe"⟩ = .ok v ∧
    toBytes (Xdr.program defs) (.named "Maybe") v = .ok bs ∧
    ∀ k, v.depth < k → fromBytes (Xdr.program defs) k (.named "Maybe") bs = .ok v := by
  obtain ⟨file, defs, it, v, hg, hd, hit, hname, hsize, hv⟩ := defaulted_ok (n := 9) (m := 3) (ds := opened)
    (cfg := Flags.config { use_union := true }) (i := ⟨false, c!"Maybe"⟩) (by decide +kernel)
  have hv' := hv
  rw [← hname] at hv'
  obtain ⟨bs, h5, h6⟩ := C64_roundtrip_union_partial hg hd (wellFormed_parse parse_opened)
    ⟨by decide +kernel, by decide +kernel⟩ rfl (by simp [opened]) (by
      intro name body h
      simp only [opened, List.mem_cons, Definition.type.injEq, TypeDef.union.injEq, List.not_mem_nil, or_false,
        reduceCtorEq] at h
      obtain ⟨rfl, rfl⟩ := h
      exact ⟨_, _, _, _, rfl, labelled_opened, .int, by decide, fun h => by simp [openBody, UnionBody.default] at h⟩) hsize hit hv'
  rw [hname] at h5 h6
  exact ⟨file, defs, v, bs, hg, hd, hv, h5, h6⟩

/-- Without default arm and without a case 0, nothing is read as the default. -/
example : ∃ file defs v, gen_code 9 closed (Flags.config { use_union := true }) = .ok file ∧
    file.defs = some defs ∧ file.default 3 ⟨false, c!"Maybe"⟩ = .ok v ∧
    ∀ k bs, fromBytes (Xdr.program defs) k (.named "Maybe") bs ≠ .ok v := by
  obtain ⟨file, defs, it, v, hg, hd, hit, hname, hsize, hv⟩ := defaulted_ok (n := 9) (m := 3) (ds := closed)
    (cfg := Flags.config { use_union := true }) (i := ⟨false, c!"Maybe"⟩) (by decide +kernel)
  exact ⟨file, defs, v, hg, hd, hv, C64_union_violated hg hd (wellFormed_parse parse_closed)
    ⟨by decide +kernel, by decide +kernel⟩ rfl (by simp [closed]) List.mem_cons_self rfl labelled_closed .int
    (fun h => absurd (h.2 rfl).1 (by decide)) rfl hv⟩

/-- With a default arm and a case for the first member (`blob`), nothing is read as the default. -/
example : ∃ file defs v, gen_code 9 catalogue (Flags.config { use_union := true }) = .ok file ∧
    file.defs = some defs ∧ file.default 3 ⟨false, c!"Item"⟩ = .ok v ∧
    ∀ k bs, fromBytes (Xdr.program defs) k (.named "Item") bs ≠ .ok v := by
  obtain ⟨file, defs, it, v, hg, hd, hit, hname, hsize, hv⟩ := defaulted_ok (n := 9) (m := 3) (ds := catalogue)
    (cfg := Flags.config { use_union := true }) (i := ⟨false, c!"Item"⟩) (by decide +kernel)
  exact ⟨file, defs, v, hg, hd, hv, C64_union_violated hg hd (wellFormed_parse parse_catalogue)
    (supported_catalogue {}).unambiguous rfl (fun e as h => ⟨_, ((enumsOk_catalogue {}).enums e as h).choose_spec.1⟩)
    item_mem rfl labelled_catalogue (.enum (k := 0) rfl numbered_catalogue ⟨by decide, by decide⟩)
    (fun h => h.1 rfl (by decide)) rfl hv⟩

/-- With `--use-indexer` and a default arm, the default cannot be written. -/
example : ∃ file defs v p, gen_code 9 catalogue (Flags.config { use_indexer := true }) = .ok file ∧
    file.defs = some defs ∧ file.default 3 ⟨false, c!"Item"⟩ = .ok v ∧
    toBytes (Xdr.program defs) (.named "Item") v = .panic p := by
  obtain ⟨file, defs, it, v, hg, hd, hit, hname, hsize, hv⟩ := defaulted_ok (n := 9) (m := 3) (ds := catalogue)
    (cfg := Flags.config { use_indexer := true }) (i := ⟨false, c!"Item"⟩) (by decide +kernel)
  obtain ⟨p, hp⟩ := C64_indexer_violated hg hd (wellFormed_parse parse_catalogue)
    (supported_catalogue {}).unambiguous rfl (.inl rfl) item_mem rfl labelled_catalogue rfl
    (ty := ⟨false, c!"Item"⟩) rfl hv
  exact ⟨file, defs, v, p, hg, hd, hv, hp⟩

end Xdr.Rpcgen
