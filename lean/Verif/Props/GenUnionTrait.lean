import Verif.RpcgenProofs.Cond
import Verif.Props.GenUnion
import Verif.Props.EndToEnd
/-!
# Property C47 with `--use-union`, and C48: default arms

`Typed ds dflt cond xd` says that the XDR value `xd` is a value of the type of the discriminant, and
`discriminant xd = some k` that it is the number `k` (`Spec/Schema.lean`).
-/

namespace Xdr.Rpcgen

open Rfc (XVal)

/-- Variant `i` of the type, called `vn`, with a field for the discriminant and fields of the types `ts`. -/
def UnionAt (env : Env) (ty : String) (i : Nat) (vn : String) (ts : List Ty) : Prop :=
  ∃ disc vars impl, env ty = some (.union disc vars impl) ∧ vars[i]? = some (vn, some (disc :: ts))

/-- The discriminant `xd` selects variant `i`, whose first field, `dv`, keeps it: the variant is written as
`xd` followed by its other fields, and read so. -/
def ArmOnWire (env : Env) (ty : String) (i : Nat) (xd : XVal) (ts : List Ty) : Prop :=
  ∃ bs dv, Rfc.encode xd = some bs ∧
    (∀ vs, HasTy env (.tuple ts) (.seq vs) → toBytes env (.named ty) (.variant i (dv :: vs)) =
      prefixed bs (toBytes env (.tuple ts) (.seq vs))) ∧
    ∀ n rest, dv.depth < n → deTy env (n + 1) (.named ty) (bs ++ rest) =
      (asVariantWith i dv <$> deTy env (n + 1) (.tuple ts)) rest

theorem Payload.le {d : Declaration} {ts : List Ty} (h : Payload d ts) : ts.length ≤ 9 := by
  rcases h with ⟨-, rfl⟩ | ⟨-, h⟩
  · simp
  · omega

theorem hasTy_cons {env : Env} {t : Ty} {ts : List Ty} {v : Val} {vs : List Val} (h : HasTy env t v)
    (hs : HasTy env (.tuple ts) (.seq vs)) : HasTy env (.tuple (t :: ts)) (.seq (v :: vs)) := by
  simp only [HasTy, present, Option.isSome_map] at h hs ⊢
  obtain ⟨s, hs'⟩ := Option.isSome_iff_exists.1 h
  obtain ⟨ss, hss⟩ := Option.isSome_iff_exists.1 hs
  simp [presentEach, hs', hss]

theorem arm_on_wire {env : Env} {ty : String} {disc : Ty} {vars : List (String × Option (List Ty))}
    {impl : UnionImpl} (henv : env ty = some (.union disc vars impl)) (hnd : (vars.map (·.1)).Nodup)
    {i : Nat} {vn : String} {ts : List Ty} (hi : vars[i]? = some (vn, some (disc :: ts)))
    (h9 : ts.length ≤ 9) {xd : XVal} {bs : Bytes} (hb : Rfc.encode xd = some bs) {dv : Val}
    (hr : Rep env disc dv xd) (hn : impl.name_by_value dv = .ok vn) : ArmOnWire env ty i xd ts := by
  refine ⟨bs, dv, hb, fun vs hvs => ?_, fun n rest hd => ?_⟩
  · rw [C24_write env ty disc vars impl henv i vn _ _ hi (hasTy_cons hr.hasTy hvs)]
    exact toBytes_tuple_cons (hr.write hb) hvs
  · exact C24_read env n ty disc vars impl henv _ rest dv (hr.readWith hb hd rest) vn hn i ts hi
      (first_of_nodup hnd hi) h9

/-- What is read as a variant's fields is that variant. -/
theorem asVariant_tuple_ok {env : Env} {n i : Nat} {ts : List Ty} {b r : Bytes} {v : Val}
    (h : (asVariant i <$> deTy env (n + 1) (.tuple ts)) b = .ok (v, r)) : ∃ vs, v = .variant i vs := by
  rw [asVariant_tuple] at h
  obtain ⟨vs, b', -, h⟩ := M.bind_eq_ok.1 h
  cases h
  exact ⟨vs, rfl⟩

section
variable {ds : List Definition} (hwf : WellFormed ds) (hu : Unambiguous ds) {flags : Flags}
  (hcu : flags.use_union = true) {n : Nat} {file : RustFile} (hg : gen_code n ds flags.config = .ok file)
  {defs : List (String × Def)} (hd : file.defs = some defs)
  {name : Str} {body : UnionBody} (hm : .type (.union name body) ∈ ds) {cond : TypeSpecifier} {nm : Str}
  {ks : List Int} (hcond : body.cond = .variable cond nm) (hlab : Labelled ds cond body.labels ks)
  (hen : EnumsOk ds flags.config cond)
include hwf hu hcu hg hd hm hcond hlab hen

/-- What the theorems below take from the generator. -/
theorem union_trait : ∃ (ty : RIdent) (vars : List (String × Option (List Ty))) (impl : UnionImpl) (disc : Ty),
    upper_camel_case_ident name = .ok ty ∧ Xdr.program defs ty.str = some (.union disc vars impl) ∧
    (vars.map (·.1)).Nodup ∧
    (∀ dflt xd k, Typed ds dflt cond xd → discriminant xd = some k → ∃ bs dv, Rfc.encode xd = some bs ∧
      Rep (Xdr.program defs) disc dv xd ∧ IsNumber file disc dv k) ∧
    (∀ l k, (l, k) ∈ body.labels.zip ks → ∃ (a : Str) (id : RIdent) (ts : List Ty) (i : Nat),
      l.1 = .identifier a ∧ upper_camel_case_ident a = .ok id ∧
      vars[i]? = some (id.str, some (disc :: ts)) ∧ Payload l.2 ts ∧
      ∀ dv, IsNumber file disc dv k → impl.name_by_value dv = .ok id.str) ∧
    (∀ k, k ∉ ks → ∀ dv, IsNumber file disc dv k → impl.name_by_value dv =
      if body.default.isSome then .ok "Default" else .err .convert) ∧
    ∀ d, body.default = some d → ∃ (i : Nat) (ts : List Ty), vars[i]? = some ("Default", some (disc :: ts)) ∧
      Payload d ts := by
  have hci : flags.config.union_impl_indexer = false := by simp [Flags.config, hcu]
  have hex : ¬ (flags.config.enum_impl_indexer = true ∧ flags.config.enum_impl_std_trait = true) := by
    simp only [Flags.config, Bool.and_eq_true, Bool.not_eq_true']
    rintro ⟨⟨h1, -⟩, h2⟩
    rw [h1] at h2
    cases h2
  have hnum : NumberedEnums ds := fun name as h => by
    obtain ⟨ks, hk, -⟩ := hen.enums name as h
    exact ⟨ks, hk⟩
  obtain ⟨ty, vars, impl, disc, rc, h1, h2, hnd, h3, h4, h5, h6, h7⟩ :=
    union_case hwf hu hnum hci hcu hg hd hm hcond hlab
  obtain ⟨hrc, hty⟩ := h3 (labels_ne hwf hm)
  obtain ⟨l0, hl0⟩ := List.exists_mem_of_ne_nil _ (labels_ne hwf hm)
  obtain ⟨k0, hk0⟩ := zip_mem_left hlab.selects.length_eq hl0
  have hs0 := forall₂_zip hlab.selects hk0
  refine ⟨ty, vars, impl, disc, h1, h2, hnd, fun dflt xd k hxd hk => ?_, fun l k hl => ?_, h6, fun d hdd => ?_⟩
  · obtain ⟨bs, hb⟩ := Option.isSome_iff_exists.1 (hxd.encodes hnum)
    have hrc' : ∃ op, convert_primitive_token (convert_type_token (setup_context ds flags.config) n)
        (setup_context ds flags.config) cond = .ok (rc, op) := by
      unfold condType at hrc
      split at hrc
      · next p hp =>
        obtain ⟨ty, op⟩ := p
        cases hrc
        exact ⟨op, hp⟩
      · next e he => exact absurd he ((selects_convert rfl hs0 n).1 e)
      · cases hrc
      · cases hrc
    obtain ⟨op, hrc'⟩ := hrc'
    obtain ⟨dv, hr, hn⟩ := cond_value hwf rfl hex hg hd hs0 hen hrc' hty h4 hxd hk
    exact ⟨bs, dv, hb, hr, hn⟩
  · obtain ⟨a, id, ts, i, ha, hid, hv, ht, hname⟩ := h5 l k hl
    exact ⟨a, id, ts, i, ha, hid, hv, payload_of ht.length, hname⟩
  · obtain ⟨i, ts, hv, ht⟩ := h7 d hdd
    exact ⟨i, ts, hv, payload_of ht.length⟩

/-- C47 with `--use-union`: each declared discriminant selects its own case, both ways. -/
theorem C47_union : ∃ ty, upper_camel_case_ident name = .ok ty ∧
    ∀ l k, (l, k) ∈ body.labels.zip ks → ∃ a id i ts, l.1 = .identifier a ∧
      upper_camel_case_ident a = .ok id ∧ Payload l.2 ts ∧ UnionAt (Xdr.program defs) ty.str i id.str ts ∧
      ∀ dflt xd, Typed ds dflt cond xd → discriminant xd = some k →
        ArmOnWire (Xdr.program defs) ty.str i xd ts := by
  obtain ⟨ty, vars, impl, disc, h1, h2, hnd, h3, h4, -⟩ := union_trait hwf hu hcu hg hd hm hcond hlab hen
  refine ⟨ty, h1, fun l k hl => ?_⟩
  obtain ⟨a, id, ts, i, ha, hid, hv, hp, hname⟩ := h4 l k hl
  refine ⟨a, id, i, ts, ha, hid, hp, ⟨_, _, _, h2, hv⟩, fun dflt xd hxd hk => ?_⟩
  obtain ⟨bs, dv, hb, hr, hn⟩ := h3 dflt xd k hxd hk
  exact arm_on_wire h2 hnd hv hp.le hb hr (hname dv hn)

/-- C47 with `--use-union`: without default arm, other discriminants are errors. -/
theorem C47_union_undeclared (hdn : body.default = none) {ty : RIdent}
    (hty : upper_camel_case_ident name = .ok ty) {dflt : Bool} {xd : XVal} (hxd : Typed ds dflt cond xd)
    {k : Int} (hk : discriminant xd = some k) (hkn : k ∉ ks) :
    ∃ bs d, Rfc.encode xd = some bs ∧ ∀ n rest, d < n →
      ∃ msg, deTy (Xdr.program defs) (n + 1) (.named ty.str) (bs ++ rest) = .err (.custom msg) := by
  obtain ⟨ty', vars, impl, disc, h1, h2, hnd, h3, -, h4, -⟩ := union_trait hwf hu hcu hg hd hm hcond hlab hen
  rw [hty] at h1
  cases h1
  obtain ⟨bs, dv, hb, hr, hnum⟩ := h3 dflt xd k hxd hk
  have hn := h4 k hkn dv hnum
  rw [hdn] at hn
  exact ⟨bs, dv.depth, hb, fun n rest hdn' => (C24_read_rejected _ n _ disc vars impl h2 _).2 dv rest .convert
    (hr.readWith hb hdn' rest) hn⟩

/-- C48, with `--use-union`: every other discriminant selects the default arm, which keeps it. -/
theorem C48_union {d : Declaration} (hdd : body.default = some d) {ty : RIdent}
    (hty : upper_camel_case_ident name = .ok ty) :
    ∃ i ts, Payload d ts ∧ UnionAt (Xdr.program defs) ty.str i "Default" ts ∧
      ∀ dflt xd k, Typed ds dflt cond xd → discriminant xd = some k → k ∉ ks →
        ArmOnWire (Xdr.program defs) ty.str i xd ts := by
  obtain ⟨ty', vars, impl, disc, h1, h2, hnd, h3, -, h5, h4⟩ := union_trait hwf hu hcu hg hd hm hcond hlab hen
  rw [hty] at h1
  cases h1
  obtain ⟨i, ts, hv, hp⟩ := h4 d hdd
  refine ⟨i, ts, hp, ⟨_, _, _, h2, hv⟩, fun dflt xd k hxd hk hkn => ?_⟩
  obtain ⟨bs, dv, hb, hr, hnum⟩ := h3 dflt xd k hxd hk
  have hn := h5 k hkn dv hnum
  rw [hdd] at hn
  exact arm_on_wire h2 hnd hv hp.le hb hr hn

end

/-! ## C48 without `--use-union` -/

/-- C48 is false with `--use-indexer`, of every union with a default arm: no value of the default arm can be
written (it is read from every undeclared number, `C47_indexer_undeclared`). -/
theorem C48_indexer_violated {ds : List Definition} (hwf : WellFormed ds) (hu : Unambiguous ds)
    {cfg : Config} (hci : cfg.union_impl_indexer = true) (hcu : cfg.union_impl_union = false) {n : Nat}
    {file : RustFile} (hg : gen_code n ds cfg = .ok file) {defs : List (String × Def)}
    (hd : file.defs = some defs)
    {name : Str} {body : UnionBody} (hm : .type (.union name body) ∈ ds) {cond : TypeSpecifier} {nm : Str}
    {ks : List Int} (hcond : body.cond = .variable cond nm) (hlab : Labelled ds cond body.labels ks)
    {ty : RIdent} (hty : upper_camel_case_ident name = .ok ty) {d : Declaration}
    (hdd : body.default = some d) :
    ∃ i ts, WireNumbers.VariantAt (Xdr.program defs) ty.str i "Default" ∧ Payload d ts ∧
      ∀ vs, HasTy (Xdr.program defs) (.tuple ts) (.seq vs) →
        ∃ p, toBytes (Xdr.program defs) (.named ty.str) (.variant i vs) = .panic p := by
  obtain ⟨ty', vars, impl, h1, h2, h3, -, -, h6⟩ := indexer_case hwf hu hci hcu hg hd hm hcond hlab
  rw [hty] at h1
  cases h1
  obtain ⟨i, fs, hi, ht, hp⟩ := h6 d hdd
  refine ⟨i, fieldTypes fs, .inr ⟨vars, fs, impl, h2, hi⟩, payload_of ht.length, fun vs hvs => ?_⟩
  simp only [HasTy, present, Option.isSome_map] at hvs
  obtain ⟨ss, hss⟩ := Option.isSome_iff_exists.1 hvs
  cases fs with
  | none =>
    simp only [fieldTypes, Option.getD_none] at hss
    cases vs with
    | nil =>
      simp only [toBytes, present, h2, hi, List.isEmpty_nil, if_true, hp, SVal.ofUser]
      exact ⟨_, rfl⟩
    | cons v vs => simp [presentEach] at hss
  | some ts =>
    simp only [fieldTypes, Option.getD_some] at hss
    simp only [toBytes, present, h2, hi, hss, Option.map_some, hp, SVal.ofUser]
    exact ⟨_, rfl⟩

/-- C48 without flags, for one number: the first above all declared ones (and above 1, if the discriminant
is a boolean) is the default arm's, both ways. Every other undeclared number is read as something else, or
not read. -/
theorem C48_serde_partial {ds : List Definition} (hwf : WellFormed ds) (hu : Unambiguous ds) {cfg : Config}
    (hc : cfg.union_complement_index = true) {n : Nat} {file : RustFile}
    (hg : gen_code n ds cfg = .ok file) {defs : List (String × Def)} (hd : file.defs = some defs)
    {name : Str} {body : UnionBody} (hm : .type (.union name body) ∈ ds) {cond : TypeSpecifier} {nm : Str}
    {ks : List Int} (hcond : body.cond = .variable cond nm) (hlab : Labelled ds cond body.labels ks)
    (h31 : ∀ k ∈ ks, k < 2147483647) {ty : RIdent} (hty : upper_camel_case_ident name = .ok ty)
    {d : Declaration} (hdd : body.default = some d) :
    ∃ (m : Nat) (ts : List Ty), Payload d ts ∧ (∀ k ∈ ks, k < (m : Int)) ∧
      (∀ i : Nat, i < m → (∃ k ∈ ks, (i : Int) ≤ k) ∨ cond = .bool ∧ i < 2) ∧
      CaseOnWire (Xdr.program defs) ty.str m "Default" m ts ∧
      ∀ j : Nat, j < 2 ^ 32 → j ≠ m → ∀ n rest v r,
        deTy (Xdr.program defs) (n + 1) (.named ty.str) (Rfc.beBytes 4 j ++ rest) = .ok (v, r) →
        j < m ∧ ∃ vs, v = .variant j vs := by
  obtain ⟨ty', vars, h1, h2, -, -, m, h4, h5, h6, -, h8⟩ := serde_case hwf hu hc hg hd hm hcond hlab
  rw [hty] at h1
  cases h1
  obtain ⟨hlen, sh, hsh, hp, -⟩ := h8 d hdd
  have e : (2 : Nat) ^ 31 = 2147483648 := by decide
  have hm31 : m < 2 ^ 31 := by
    cases m with
    | zero => decide
    | succ m =>
      rcases h5 m (by omega) with ⟨k, hk, hle⟩ | ⟨-, h⟩
      · have := h31 k hk
        omega
      · omega
  refine ⟨m, sh.types, payload_of hp, fun k hk => ?_, h5, case_serde h2 hsh hm31, ?_⟩
  · have := h6 k hk
    have := (hlab.range k hk).1
    omega
  · intro j hj hjm n rest v r hv
    have hr := C16_read (Xdr.program defs) n ty.str vars h2 j hj rest
    by_cases hj31 : 2 ^ 31 ≤ j
    · rw [hr.1 hj31] at hv
      cases hv
    · by_cases hlt : j < m
      · refine ⟨hlt, ?_⟩
        obtain ⟨x, hx⟩ : ∃ x, vars[j]? = some x := ⟨vars[j], by
          rw [List.getElem?_eq_getElem (by omega)]⟩
        obtain ⟨vn, sh'⟩ := x
        rw [hr.2.2 vn sh' (by omega) hx] at hv
        exact asVariant_tuple_ok hv
      · obtain ⟨msg, hmsg⟩ := hr.2.1 (by omega) (by omega)
        rw [hmsg] at hv
        cases hv

/-! The hypotheses hold of the sample interfaces. -/

theorem enumsOk_catalogue (flags : Flags) : EnumsOk catalogue flags.config (.identifier c!"kind") where
  enums := (supported_catalogue flags).enums
  positions _ as h := by
    cases h with
    | enum h =>
      cases h
      exact positional_catalogue
    | typedef h => cases h

theorem kind_misc : Typed catalogue false (.identifier c!"kind") (.enum 3) :=
  .name (t := .enum c!"kind" catalogueKinds) rfl
    (.enum (a := ⟨c!"misc", .constant (.decimal c!"3")⟩) (by decide) ⟨_, .literal _, rfl⟩)

theorem kind_text : Typed catalogue false (.identifier c!"kind") (.enum 1) :=
  .name (t := .enum c!"kind" catalogueKinds) rfl
    (.enum (a := ⟨c!"text", .constant (.decimal c!"1")⟩) (by decide) ⟨_, .literal _, rfl⟩)

theorem item_mem : .type (.union c!"item" catalogueItem) ∈ catalogue := by simp [catalogue]

/-- `text` selects its case, `misc` the default arm. -/
example : ∃ file defs i j ts us, gen_code 9 catalogue (Flags.config { use_union := true }) = .ok file ∧
    file.defs = some defs ∧ UnionAt (Xdr.program defs) "Item" i "Text" ts ∧ ts.length = 1 ∧
    ArmOnWire (Xdr.program defs) "Item" i (.enum 1) ts ∧
    UnionAt (Xdr.program defs) "Item" j "Default" us ∧ us.length = 1 ∧
    ArmOnWire (Xdr.program defs) "Item" j (.enum 3) us := by
  obtain ⟨file, defs, hg, hd⟩ := accepted_ok (n := 9) (ds := catalogue)
    (cfg := Flags.config { use_union := true }) (by decide +kernel)
  obtain ⟨ty, h1, h2⟩ := C47_union (wellFormed_parse parse_catalogue) (supported_catalogue {}).unambiguous rfl hg hd
    item_mem rfl labelled_catalogue (enumsOk_catalogue _)
  cases h1
  obtain ⟨a, id, i, ts, ha, hid, hp, hu, hw⟩ := h2 (.identifier c!"text", .string c!"s" none) 1
    (List.mem_iff_getElem?.2 ⟨1, rfl⟩)
  cases ha
  cases hid
  obtain ⟨j, us, hp', hu', hw'⟩ := C48_union (wellFormed_parse parse_catalogue)
    (supported_catalogue {}).unambiguous rfl hg hd
    item_mem rfl labelled_catalogue (enumsOk_catalogue _) rfl (ty := ⟨false, c!"Item"⟩) rfl
  have len : ∀ {d ts}, Payload d ts → d ≠ .void → ts.length = 1 := by
    rintro d ts (⟨h, -⟩ | ⟨-, h⟩) hd
    · exact absurd h hd
    · exact h
  exact ⟨file, defs, i, j, ts, us, hg, hd, hu, len hp (by simp), hw false _ kind_text rfl, hu', len hp' (by simp),
    hw' false _ 3 kind_misc rfl (by decide)⟩

/-- Without default arm, an undeclared discriminant is an error. -/
def closedText : Str := c!"union maybe switch (unsigned k) { case ONE: hyper h; }; const ONE = 1;"

def closedBody : UnionBody := ⟨.variable (.int false) c!"k",
  [⟨[.identifier c!"ONE"], .variable (.hyper true) c!"h"⟩], none⟩

def closed : List Definition := [.type (.union c!"maybe" closedBody),
  .constant ⟨c!"ONE", .constant (.decimal c!"1")⟩]

theorem parse_closed : parse closedText = .ok closed := by
  set_option maxRecDepth 100000 in rfl

theorem labelled_closed : Labelled closed (.int false) closedBody.labels [1] where
  selects := .cons (.int ⟨_, .name rfl (.literal _), rfl⟩) .nil
  distinct := by decide
  range := by decide

theorem enumsOk_closed (cfg : Config) : EnumsOk closed cfg (.int false) where
  enums e as h := by simp [closed] at h
  positions _ as h := by cases h

example : ∃ file defs bs d, gen_code 9 closed (Flags.config { use_union := true }) = .ok file ∧
    file.defs = some defs ∧ Rfc.encode (.uint 7) = some bs ∧ ∀ n rest, d < n →
      ∃ msg, deTy (Xdr.program defs) (n + 1) (.named "Maybe") (bs ++ rest) = .err (.custom msg) := by
  obtain ⟨file, defs, hg, hd⟩ := accepted_ok (n := 9) (ds := closed)
    (cfg := Flags.config { use_union := true }) (by decide +kernel)
  obtain ⟨bs, d, h1, h2⟩ := C47_union_undeclared (wellFormed_parse parse_closed)
    ⟨by decide +kernel, by decide +kernel⟩ rfl hg hd List.mem_cons_self rfl labelled_closed (enumsOk_closed _) rfl
    (ty := ⟨false, c!"Maybe"⟩) rfl (dflt := false) (.uint (k := 7) (by decide)) rfl (by decide)
  exact ⟨file, defs, bs, d, hg, hd, h1, h2⟩

/-- With `--use-indexer`: declared numbers, undeclared ones, and the panic. -/
example : ∃ file defs i j k ts us, gen_code 9 catalogue (Flags.config { use_indexer := true }) = .ok file ∧
    file.defs = some defs ∧ CaseOnWire (Xdr.program defs) "Item" i "Text" 1 ts ∧ ts.length = 1 ∧
    (∀ n rest, deTy (Xdr.program defs) (n + 1) (.named "Item") (Rfc.beBytes 4 3 ++ rest) =
      (asVariant j <$> deTy (Xdr.program defs) (n + 1) (.tuple us)) rest) ∧
    WireNumbers.VariantAt (Xdr.program defs) "Item" k "Default" := by
  obtain ⟨file, defs, hg, hd⟩ := accepted_ok (n := 9) (ds := catalogue)
    (cfg := Flags.config { use_indexer := true }) (by decide +kernel)
  have hwf := wellFormed_parse parse_catalogue
  have hun := (supported_catalogue {}).unambiguous
  obtain ⟨ty, h1, h2⟩ := C47_indexer hwf hun rfl rfl hg hd item_mem rfl labelled_catalogue
  cases h1
  obtain ⟨a, id, i, ts, ha, hid, hp, hw⟩ := h2 (.identifier c!"text", .string c!"s" none) 1
    (List.mem_iff_getElem?.2 ⟨1, rfl⟩)
  cases ha
  cases hid
  obtain ⟨j, us, -, -, hr⟩ := (C47_indexer_undeclared hwf hun rfl rfl hg hd item_mem rfl labelled_catalogue
    (ty := ⟨false, c!"Item"⟩) rfl).2 _ rfl
  obtain ⟨k, _, hk, -⟩ := C48_indexer_violated hwf hun rfl rfl hg hd item_mem rfl labelled_catalogue
    (ty := ⟨false, c!"Item"⟩) rfl rfl
  refine ⟨file, defs, i, j, k, ts, us, hg, hd, hw, ?_, hr 3 (by decide) (by decide), hk⟩
  rcases hp with ⟨h, -⟩ | ⟨-, h⟩
  · cases h
  · exact h

/-- Without flags: 3 is the default arm's number. -/
example : ∃ file defs ts, gen_code 9 catalogue (Flags.config {}) = .ok file ∧ file.defs = some defs ∧
    CaseOnWire (Xdr.program defs) "Item" 3 "Default" 3 ts ∧ ts.length = 1 := by
  obtain ⟨file, defs, hg, hd⟩ := accepted_ok (n := 9) (ds := catalogue) (cfg := Flags.config {})
    (by decide +kernel)
  obtain ⟨m, ts, hp, hk, hi, hw, -⟩ := C48_serde_partial (wellFormed_parse parse_catalogue)
    (supported_catalogue {}).unambiguous rfl hg hd item_mem rfl labelled_catalogue (by decide)
    (ty := ⟨false, c!"Item"⟩) rfl rfl
  have h3 : m = 3 := by
    have h2 := hk 2 (by decide)
    by_contra hne
    rcases hi 3 (by omega) with ⟨k, hk, hle⟩ | ⟨h, -⟩
    · simp only [List.mem_cons, List.not_mem_nil, or_false] at hk
      omega
    · cases h
  subst h3
  refine ⟨file, defs, ts, hg, hd, hw, ?_⟩
  rcases hp with ⟨h, -⟩ | ⟨-, h⟩
  · cases h
  · exact h

end Xdr.Rpcgen
