import Verif.RpcgenProofs.UnionWire
import Verif.Props.GenEnum
/-!
# Properties C46 to C48: generated unions on the wire

`Labelled ds cond body.labels ks` says which numbers the labels of a union have (`Spec/Schema.lean`); the
other words are those of `Props/GenEnum.lean`.
-/

namespace Xdr.Rpcgen

/-- Variant `i` of the type, called `vn`, with fields of the types `ts`, is the number `k` followed by its
fields: it is written so, and read so. -/
structure CaseOnWire (env : Env) (ty : String) (i : Nat) (vn : String) (k : Nat) (ts : List Ty) : Prop where
  variant : WireNumbers.VariantAt env ty i vn
  write : ∀ vs, HasTy env (.tuple ts) (.seq vs) → toBytes env (.named ty) (.variant i vs) =
    prefixed (Rfc.beBytes 4 k) (toBytes env (.tuple ts) (.seq vs))
  read : ∀ n rest, deTy env (n + 1) (.named ty) (Rfc.beBytes 4 k ++ rest) =
    (asVariant i <$> deTy env (n + 1) (.tuple ts)) rest

/-- No field for `void`, one field for anything else. -/
def Payload (d : Declaration) (ts : List Ty) : Prop := (d = .void ∧ ts = []) ∨ (d ≠ .void ∧ ts.length = 1)

theorem payload_of {d : Declaration} {ts : List Ty} (h : (d = .void ↔ ts = []) ∧ ts.length ≤ 1) :
    Payload d ts := by
  by_cases hd : d = .void
  · exact .inl ⟨hd, h.1.1 hd⟩
  · refine .inr ⟨hd, ?_⟩
    cases ts with
    | nil => exact absurd (h.1.2 rfl) hd
    | cons t ts =>
      have := h.2
      simp only [List.length_cons] at this ⊢
      omega

theorem case_serde {env : Env} {ty : String} {vars : List (String × Shape)}
    (henv : env ty = some (.enum vars)) {i : Nat} {vn : String} {sh : Shape}
    (hi : vars[i]? = some (vn, sh)) (h31 : i < 2 ^ 31) : CaseOnWire env ty i vn i sh.types where
  variant := .inl ⟨vars, sh, henv, hi⟩
  write vs hvs := by rw [C16_write env ty vars henv i vn sh vs hi hvs (by omega), if_pos h31]
  read n rest := (C16_read env n ty vars henv i (by omega) rest).2.2 vn sh h31 hi

/-- C46. In the default configuration each case of the generated union is on the wire under its declared
number, both ways, with the arm's value after it. -/
theorem C46_cases {ds : List Definition} (hwf : WellFormed ds) (hu : Unambiguous ds) {cfg : Config}
    (hc : cfg.union_complement_index = true) {n : Nat} {file : RustFile}
    (hg : gen_code n ds cfg = .ok file) {defs : List (String × Def)} (hd : file.defs = some defs)
    {name : Str} {body : UnionBody} (hm : .type (.union name body) ∈ ds) {cond : TypeSpecifier} {nm : Str}
    {ks : List Int} (hcond : body.cond = .variable cond nm) (hlab : Labelled ds cond body.labels ks)
    (h31 : ∀ k ∈ ks, k < 2147483648) :
    ∃ ty, upper_camel_case_ident name = .ok ty ∧
      ∀ l k, (l, k) ∈ body.labels.zip ks → ∃ a id i ts, l.1 = .identifier a ∧
        upper_camel_case_ident a = .ok id ∧ Payload l.2 ts ∧
        CaseOnWire (Xdr.program defs) ty.str i id.str k.toNat ts := by
  obtain ⟨ty, vars, h1, h2, -, h3, -⟩ := serde_case hwf hu hc hg hd hm hcond hlab
  refine ⟨ty, h1, fun l k hlk => ?_⟩
  obtain ⟨a, id, sh, ha, hid, hv, -, ht⟩ := h3 l k hlk
  have hk := (List.of_mem_zip hlk).2
  have := h31 k hk
  have := (hlab.range k hk).1
  have e : (2 : Nat) ^ 31 = 2147483648 := by decide
  exact ⟨a, id, k.toNat, sh.types, ha, hid, payload_of ht.length, case_serde h2 hv (by omega)⟩

/-- C46, on other numbers: below a declared one, a variant that is no case's is read, and it is written
back as that number; above all declared ones, a union without default arm is not read. -/
theorem C46_undeclared {ds : List Definition} (hwf : WellFormed ds) (hu : Unambiguous ds) {cfg : Config}
    (hc : cfg.union_complement_index = true) {n : Nat} {file : RustFile}
    (hg : gen_code n ds cfg = .ok file) {defs : List (String × Def)} (hd : file.defs = some defs)
    {name : Str} {body : UnionBody} (hm : .type (.union name body) ∈ ds) {cond : TypeSpecifier} {nm : Str}
    {ks : List Int} (hcond : body.cond = .variable cond nm) (hlab : Labelled ds cond body.labels ks)
    (h31 : ∀ k ∈ ks, k < 2147483648) {ty : RIdent} (hty : upper_camel_case_ident name = .ok ty)
    (j : Nat) (hj : j < 2 ^ 32) (hjk : (j : Int) ∉ ks) :
    ((∃ k ∈ ks, (j : Int) < k) → ∃ vn, CaseOnWire (Xdr.program defs) ty.str j vn j [] ∧
      ∀ a id, upper_camel_case_ident a = .ok id → vn ≠ id.str) ∧
    ((∀ k ∈ ks, k < (j : Int)) → (cond = .bool → 2 ≤ j) → body.default = none →
      ∀ n rest, ∃ err, deTy (Xdr.program defs) (n + 1) (.named ty.str) (Rfc.beBytes 4 j ++ rest) = .err err) := by
  obtain ⟨ty', vars, h1, h2, -, -, m, h4, h5, h6, h7, -⟩ := serde_case hwf hu hc hg hd hm hcond hlab
  rw [hty] at h1
  cases h1
  have e : (2 : Nat) ^ 31 = 2147483648 := by decide
  constructor
  · rintro ⟨k, hk, hlt⟩
    have := h6 k hk
    have := h31 k hk
    obtain ⟨vn, hvn, hne⟩ := h4 j (by omega) hjk
    exact ⟨vn, case_serde h2 hvn (by omega), hne⟩
  · intro hab hb hdn n rest
    have hlen := h7 hdn
    have hr := C16_read (Xdr.program defs) n ty.str vars h2 j hj rest
    by_cases hj31 : 2 ^ 31 ≤ j
    · exact ⟨_, hr.1 hj31⟩
    · obtain ⟨msg, hmsg⟩ := hr.2.1 (by omega) (by
        rw [hlen]
        by_contra hjm
        rcases h5 j (by omega) with ⟨k, hk, hle⟩ | ⟨hbool, h2'⟩
        · have := hab k hk
          omega
        · have := hb hbool
          omega)
      exact ⟨_, hmsg⟩

/-! The hypotheses hold of this interface. -/

/-- A union on an enum, with `void`, string and opaque arms, and an arm with two labels. -/
def shapes : List Definition :=
  [.type (.enum c!"kind" [⟨c!"NONE", .constant (.decimal c!"4")⟩, ⟨c!"text", .constant (.decimal c!"1")⟩,
    ⟨c!"raw_data", .constant (.decimal c!"2")⟩, ⟨c!"RAW2", .constant (.decimal c!"6")⟩]),
   .type (.union c!"shape" ⟨.variable (.identifier c!"kind") c!"k",
    [⟨[.identifier c!"NONE"], .void⟩, ⟨[.identifier c!"text"], .string c!"s" none⟩,
     ⟨[.identifier c!"raw_data", .identifier c!"RAW2"], .opaqueVariableArray c!"o" none⟩], none⟩)]

theorem parse_shapes : parse c!"enum kind { NONE = 4, text = 1, raw_data = 2, RAW2 = 6 }; union shape switch (kind k) { case NONE: void; case text: string s<>; case raw_data: case RAW2: opaque o<>; };" =
    .ok shapes := by
  set_option maxRecDepth 100000 in rfl

theorem unambiguous_shapes : Unambiguous shapes where
  values := by decide +kernel
  types := by decide +kernel

def shapeBody : UnionBody := ⟨.variable (.identifier c!"kind") c!"k",
    [⟨[.identifier c!"NONE"], .void⟩, ⟨[.identifier c!"text"], .string c!"s" none⟩,
     ⟨[.identifier c!"raw_data", .identifier c!"RAW2"], .opaqueVariableArray c!"o" none⟩], none⟩

theorem shape_mem : .type (.union c!"shape" shapeBody) ∈ shapes := List.mem_cons_of_mem _ List.mem_cons_self

theorem labelled_shapes : Labelled shapes (.identifier c!"kind") shapeBody.labels [4, 1, 2, 6] where
  selects :=
    .cons (.enum (a := ⟨c!"NONE", .constant (.decimal c!"4")⟩) rfl (by simp) ⟨_, .literal _, rfl⟩)
    (.cons (.enum (a := ⟨c!"text", .constant (.decimal c!"1")⟩) rfl (by simp) ⟨_, .literal _, rfl⟩)
    (.cons (.enum (a := ⟨c!"raw_data", .constant (.decimal c!"2")⟩) rfl (by simp) ⟨_, .literal _, rfl⟩)
    (.cons (.enum (a := ⟨c!"RAW2", .constant (.decimal c!"6")⟩) rfl (by simp) ⟨_, .literal _, rfl⟩) .nil)))
  distinct := by decide
  range := by decide

example : ∃ file defs i ts, gen_code 5 shapes (Flags.config {}) = .ok file ∧ file.defs = some defs ∧
    ts.length = 1 ∧ CaseOnWire (Xdr.program defs) "Shape" i "RawData" 2 ts := by
  obtain ⟨file, defs, hg, hd⟩ := accepted_ok (n := 5) (ds := shapes) (cfg := Flags.config {}) (by decide +kernel)
  obtain ⟨ty, h1, h2⟩ := C46_cases (ds := shapes) (wellFormed_parse parse_shapes) unambiguous_shapes rfl hg hd
    shape_mem rfl labelled_shapes (by decide)
  cases h1
  obtain ⟨a, id, i, ts, ha, hid, hp, hw⟩ := h2 (.identifier c!"raw_data", .opaqueVariableArray c!"o" none) 2
    (List.mem_iff_getElem?.2 ⟨2, rfl⟩)
  cases ha
  cases hid
  rcases hp with ⟨h, -⟩ | ⟨-, h⟩
  · cases h
  · exact ⟨file, defs, i, ts, hg, hd, h, hw⟩

example : ∃ file defs vn err, gen_code 5 shapes (Flags.config {}) = .ok file ∧ file.defs = some defs ∧
    CaseOnWire (Xdr.program defs) "Shape" 3 vn 3 [] ∧
    deTy (Xdr.program defs) 1 (.named "Shape") (Rfc.beBytes 4 7 ++ []) = .err err := by
  obtain ⟨file, defs, hg, hd⟩ := accepted_ok (n := 5) (ds := shapes) (cfg := Flags.config {}) (by decide +kernel)
  have key := C46_undeclared (ds := shapes) (wellFormed_parse parse_shapes) unambiguous_shapes rfl hg hd
    shape_mem rfl labelled_shapes (by decide) (ty := ⟨false, c!"Shape"⟩) rfl
  obtain ⟨vn, h3, -⟩ := (key 3 (by decide) (by decide)).1 ⟨4, by decide⟩
  obtain ⟨err, h7⟩ := (key 7 (by decide) (by decide)).2 (by decide) (by simp) rfl 0 []
  exact ⟨file, defs, vn, err, hg, hd, h3, h7⟩

/-! ## C47 with `XdrIndexer` -/

theorem toBytes_tuple_cons {env : Env} {t : Ty} {ts : List Ty} {v : Val} {vs : List Val} {bs : Bytes}
    (h1 : toBytes env t v = .ok bs) (hvs : HasTy env (.tuple ts) (.seq vs)) :
    toBytes env (.tuple (t :: ts)) (.seq (v :: vs)) = prefixed bs (toBytes env (.tuple ts) (.seq vs)) := by
  simp only [HasTy, present, Option.isSome_map] at hvs
  obtain ⟨ss, hss⟩ := Option.isSome_iff_exists.1 hvs
  simp only [toBytes] at h1
  cases hs : present env t v with
  | none => simp [hs] at h1
  | some s =>
    simp only [hs] at h1
    simp only [toBytes, present, presentEach, hs, hss, Option.map_some]
    rw [to_bytes_node, to_bytes_node]
    simp only [nodeBytes, bytesList_cons, h1, cat_prefixed]

theorem toBytes_i32 (env : Env) {k : Int} (h : 0 ≤ k ∧ k ≤ 4294967295) :
    toBytes env .i32 (.i32 (Int32.ofInt (asI32 k))) = .ok (Rfc.beBytes 4 k.toNat) := by
  have h1 := asI32_signed h
  rw [← toInt_ofInt (asI32_range h), signed4] at h1
  simp only [Option.some.injEq] at h1
  simp only [toBytes, present, to_bytes_node, nodeBytes, h1]

theorem case_indexer {env : Env} {ty : String} {vars : List (String × Option (List Ty))} {impl : IndexerImpl}
    (henv : env ty = some (.indexer vars impl)) (hnd : (vars.map (·.1)).Nodup) {i : Nat} {vn : String}
    {fs : Option (List Ty)} (hi : vars[i]? = some (vn, fs)) {k : Int} (hk : 0 ≤ k ∧ k ≤ 4294967295)
    (hw : ∀ vs, impl.index i vs = .ok (Int32.ofInt (asI32 k)))
    (hr : impl.name_by_index (Int32.ofInt (asI32 k)) = .ok vn) (h9 : (fieldTypes fs).length ≤ 9) :
    CaseOnWire env ty i vn k.toNat (fieldTypes fs) where
  variant := .inr ⟨vars, fs, impl, henv, hi⟩
  write vs hvs := by
    rw [C23_write env ty vars impl henv i vn fs vs _ hi hvs (hw vs)]
    exact toBytes_tuple_cons (toBytes_i32 env hk) hvs
  read n rest := C23_read env n ty vars impl henv _ _ rest
    (by rw [toInt_ofInt (asI32_range hk)]; exact asI32_signed hk) vn hr i fs hi (first_of_nodup hnd hi) h9

/-- C47 with `--use-indexer`: each declared number, up to 2^32 - 1, selects its own case, both ways. -/
theorem C47_indexer {ds : List Definition} (hwf : WellFormed ds) (hu : Unambiguous ds) {cfg : Config}
    (hci : cfg.union_impl_indexer = true) (hcu : cfg.union_impl_union = false) {n : Nat} {file : RustFile}
    (hg : gen_code n ds cfg = .ok file) {defs : List (String × Def)} (hd : file.defs = some defs)
    {name : Str} {body : UnionBody} (hm : .type (.union name body) ∈ ds) {cond : TypeSpecifier} {nm : Str}
    {ks : List Int} (hcond : body.cond = .variable cond nm) (hlab : Labelled ds cond body.labels ks) :
    ∃ ty, upper_camel_case_ident name = .ok ty ∧
      ∀ l k, (l, k) ∈ body.labels.zip ks → ∃ a id i ts, l.1 = .identifier a ∧
        upper_camel_case_ident a = .ok id ∧ Payload l.2 ts ∧
        CaseOnWire (Xdr.program defs) ty.str i id.str k.toNat ts := by
  obtain ⟨ty, vars, impl, h1, h2, h3, h4, -⟩ := indexer_case hwf hu hci hcu hg hd hm hcond hlab
  refine ⟨ty, h1, fun l k hlk => ?_⟩
  obtain ⟨a, id, fs, i, ha, hid, hv, ht, hw, hr⟩ := h4 l k hlk
  have hk := hlab.range k (List.of_mem_zip hlk).2
  have hlen := ht.length
  exact ⟨a, id, i, fieldTypes fs, ha, hid, payload_of hlen, case_indexer h2 h3 hv hk hw hr (by omega)⟩

/-- C47 with `--use-indexer`, on other numbers: the default arm is read, whose number is then lost, or
nothing if there is none. -/
theorem C47_indexer_undeclared {ds : List Definition} (hwf : WellFormed ds) (hu : Unambiguous ds)
    {cfg : Config} (hci : cfg.union_impl_indexer = true) (hcu : cfg.union_impl_union = false) {n : Nat}
    {file : RustFile} (hg : gen_code n ds cfg = .ok file) {defs : List (String × Def)}
    (hd : file.defs = some defs)
    {name : Str} {body : UnionBody} (hm : .type (.union name body) ∈ ds) {cond : TypeSpecifier} {nm : Str}
    {ks : List Int} (hcond : body.cond = .variable cond nm) (hlab : Labelled ds cond body.labels ks)
    {ty : RIdent} (hty : upper_camel_case_ident name = .ok ty) :
    (body.default = none → ∀ j : Nat, j < 2 ^ 32 → (j : Int) ∉ ks → ∀ n rest,
      ∃ err, deTy (Xdr.program defs) (n + 1) (.named ty.str) (Rfc.beBytes 4 j ++ rest) = .err err) ∧
    (∀ d, body.default = some d → ∃ i ts, WireNumbers.VariantAt (Xdr.program defs) ty.str i "Default" ∧
      Payload d ts ∧ ∀ j : Nat, j < 2 ^ 32 → (j : Int) ∉ ks → ∀ n rest,
        deTy (Xdr.program defs) (n + 1) (.named ty.str) (Rfc.beBytes 4 j ++ rest) =
          (asVariant i <$> deTy (Xdr.program defs) (n + 1) (.tuple ts)) rest) := by
  obtain ⟨ty', vars, impl, h1, h2, h3, -, h5, h6⟩ := indexer_case hwf hu hci hcu hg hd hm hcond hlab
  rw [hty] at h1
  cases h1
  have hbs : ∀ j : Nat, j < 2 ^ 32 → Rfc.signed 4 (Int32.ofInt (asI32 (j : Int))).toInt =
      some (Rfc.beBytes 4 j) := by
    intro j hj
    rw [toInt_ofInt (asI32_range (by omega)), asI32_signed (by omega)]
    rfl
  constructor
  · intro hdn j hj hjk n rest
    have hn := h5 j (by omega) hjk
    rw [hdn] at hn
    exact ⟨_, C23_read_unknown _ n _ vars impl h2 _ _ rest (hbs j hj) _ hn⟩
  · intro d hdd
    obtain ⟨i, fs, hi, ht, -⟩ := h6 d hdd
    refine ⟨i, fieldTypes fs, .inr ⟨vars, fs, impl, h2, hi⟩, payload_of ht.length, fun j hj hjk n rest => ?_⟩
    have hn := h5 j (by omega) hjk
    rw [hdd] at hn
    have hlen := ht.length
    exact C23_read _ n _ vars impl h2 _ _ rest (hbs j hj) _ hn i fs hi (first_of_nodup h3 hi) (by omega)

end Xdr.Rpcgen
