import Verif.RpcgenProofs.Accepted
/-!
# The readers of generated types take all the bytes listed for a value

The proof of `EndToEndRep.lean` again, with bytes (`Spec/AcceptedForm.lean`).
-/

namespace Xdr.Rpcgen

open Rfc (XVal)
open Wire (Form Forms Called)

/-- `v` stands for `x`, and is read from `b`. -/
def RepF (env : Env) (t : Ty) (v : Val) (x : XVal) (b : Bytes) : Prop := Rep env t v x ∧ Form env t v b

/-- The translation of a type specifier reads `b` as a value for `x`. -/
def TypedTakes (ds : List Definition) (cfg : Config) (file : RustFile) (defs : List (String × Def))
    (ts : TypeSpecifier) (x : XVal) (b : Bytes) : Prop :=
  ∀ m rty op, convert_primitive_token (convert_type_token (setup_context ds cfg) m) (setup_context ds cfg) ts =
    .ok (rty, op) → ∀ attr t, AttrOk ds cfg ts attr op →
    fieldMeaning file.constants file.enums attr rty = some t →
    ∃ v, RepF (Xdr.program defs) t v x b ∧ NumOk file t v x

/-- The translation of a declaration reads `b` as a value for `x`. -/
def DeclTakes (ds : List Definition) (cfg : Config) (file : RustFile) (defs : List (String × Def))
    (d : Declaration) (x : XVal) (b : Bytes) : Prop :=
  (∀ a ∈ d.atoms, a.Ok) → (∀ ts nm m, d = .variableArray ts nm m → OpaqueOk ds (.variable ts nm)) →
  ∀ m rty op, convert_type_token (setup_context ds cfg) m d = .ok (some (rty, op)) → ∀ attr t,
    ((attr = op.attr ∧ (op = .none → ∀ ts, d.type_specifier = some ts → UseOk ds cfg ts)) ∨
     (op = .none ∧ attr = .signed32 ∧ ∃ ts, d.type_specifier = some ts ∧
      (setup_context ds cfg).is_enum_type ts = true)) →
    fieldMeaning file.constants file.enums attr rty = some t →
    ∃ v, RepF (Xdr.program defs) t v x b ∧ NumOk file t v x

/-- The translation of a definition reads `b` as a value for `x`. -/
def DefinedTakes (ds : List Definition) (cfg : Config) (file : RustFile) (defs : List (String × Def)) :
    TypeDef → XVal → Bytes → Prop
  | .declaration d, x, b => DeclTakes ds cfg file defs d x b
  | .enum e as, x, b => DefinedF ds cfg (.enum e as) x b
  | .struct s _, x, b => ∀ id, upper_camel_case_ident s = .ok id →
    (∃ v, RepF (Xdr.program defs) (.named id.str) v x b) ∧ discriminant x = none
  | .union u _, x, b => ∀ id, upper_camel_case_ident u = .ok id →
    (∃ v, RepF (Xdr.program defs) (.named id.str) v x b) ∧ discriminant x = none

/-- The translation of a type specifier reads `b` as values for `xs`. -/
def EachTakes (ds : List Definition) (cfg : Config) (file : RustFile) (defs : List (String × Def))
    (ts : TypeSpecifier) (xs : List XVal) (b : Bytes) : Prop :=
  ∀ m rty, convert_primitive_token (convert_type_token (setup_context ds cfg) m) (setup_context ds cfg) ts =
    .ok (rty, .none) → UseOk ds cfg ts → ∀ t, rty.meaning file.constants = some t →
    ∃ vs, List.Forall₂ (Rep (Xdr.program defs) t) vs xs ∧ Forms (Xdr.program defs) (List.replicate xs.length t) vs b

/-- The fields of a generated struct are read from `b` as values for `xs`. -/
def MembersTakes (ds : List Definition) (cfg : Config) (file : RustFile) (defs : List (String × Def))
    (ms : List Declaration) (xs : List XVal) (b : Bytes) : Prop :=
  (∀ d ∈ ms, MemberIn ds d ∧ ∀ a ∈ d.atoms, a.Ok) →
  ∀ m name fields fs, List.Forall₂ (fun d r => convertField (setup_context ds cfg) m name d = .ok r) ms fields →
    fieldsMeaning file.constants file.enums fields = some fs →
    ∃ vs, RepEach (Xdr.program defs) (fs.map (·.2)) vs xs ∧ Forms (Xdr.program defs) (fs.map (·.2)) vs b

section
variable {ds : List Definition} {cfg : Config} {n : Nat} {file : RustFile} {defs : List (String × Def)}
  {dflt : Bool}

theorem plainOpaque_takes {d : Declaration} (hp : PlainOpaque ds d) {x : XVal} {b : Bytes}
    (h : DeclaredF ds cfg d x b) : ∃ bs p : Bytes, x = .opaqueVar bs ∧ bs.length < 2 ^ 32 ∧
      Wire.Padding bs.length p ∧ b = Wire.word bs.length ++ (bs ++ p) := by
  induction hp with
  | direct =>
    cases h with
    | opaqueVar h h' => exact ⟨_, _, rfl, h, h', rfl⟩
  | typedef hd _ ih =>
    cases h with
    | «variable» h =>
    cases h with
    | name h1 h2 =>
    rw [hd] at h1
    cases h1
    cases h2 with
    | typedef h2 => exact ih h2

theorem takes_variableArray (hg : gen_code n ds cfg = .ok file) (hd : file.defs = some defs) {bs p : Bytes}
    (h : bs.length < 2 ^ 32) (hp : Wire.Padding bs.length p) :
    RepF (Xdr.program defs) (.named variableArrayName) (.seq [.bytes bs]) (.opaqueVar bs)
      (Wire.word bs.length ++ (bs ++ p)) := by
  refine ⟨rep_variableArray hg hd h, ?_⟩
  have := Form.struct (variableArray_lookup hg hd) (.cons (.opaqueVar h hp) .nil)
  rwa [List.append_nil] at this

theorem one_forms {env : Env} {t : Ty} {v : Val} {b : Bytes} (h : Form env t v b) : Forms env [t] [v] b := by
  have := Forms.cons h .nil
  rwa [List.append_nil] at this

theorem EachF.typed : ∀ {ts xs b}, EachF ds cfg ts xs b → ∀ (t : Ty),
    (∀ x b, TypedF ds cfg ts x b → ∃ v, RepF (Xdr.program defs) t v x b) →
    ∃ vs, List.Forall₂ (Rep (Xdr.program defs) t) vs xs ∧ Forms (Xdr.program defs) (List.replicate xs.length t) vs b
  | _, _, _, .nil, t, h => ⟨[], .nil, .nil⟩
  | _, _, _, .cons h1 h2, t, h => by
    obtain ⟨v, hv, hf⟩ := h _ _ h1
    obtain ⟨vs, hvs, hfs⟩ := EachF.typed h2 t h
    exact ⟨v :: vs, .cons hv hvs, .cons hf hfs⟩

theorem word_of_length {b : Bytes} (h : b.length = 4) : ∃ w, w < 2 ^ 32 ∧ b = Wire.word w := by
  match b, h with
  | [a, b, c, d], _ => exact ⟨_, UInt32.toNat_lt _, Wire.word_of a b c d⟩

/-- The bytes for a value of an enum. -/
theorem enum_takes (R : Run ds cfg n file defs dflt) {name : Str} {as : List Assign}
    (hm : .type (.enum name as) ∈ ds) {x : XVal} {b : Bytes} (hx : DefinedF ds cfg (.enum name as) x b) {ty : RIdent}
    (hty : upper_camel_case_ident name = .ok ty) :
    ∃ e i id k, .enum e ∈ file.types ∧ e.name = ty ∧ x = .enum k ∧ e.variants[i]? = some (id, k) ∧
      ((cfg.enum_impl_std_trait = true → Positional ds as) →
        RepF (Xdr.program defs) (.named ty.str) (.variant i []) x b) ∧
      (∀ t, fieldMeaning file.constants file.enums .signed32 (.path ty) = some t →
        RepF (Xdr.program defs) t (.variant i []) x b) := by
  obtain ⟨ks, hnum, hpos⟩ := R.ok.enums name as hm
  cases hx with
  | enum ha hk hb =>
    obtain ⟨e, i, vid, he, hn, hv, g1, g2⟩ :=
      enum_values R.wf R.enumTraits R.gen R.defs hm hnum hpos ha hk hty
    exact ⟨e, i, vid, _, he, hn, rfl, hv, fun h => ⟨g1 h, rep_form (g1 h) hb⟩, fun t h => ⟨g2 t h, rep_form (g2 t h) hb⟩⟩
  | enumGap hc ha hj h0 hkj hb =>
    rename_i a j k
    replace hc : cfg.enum_complement_index = true := hc
    obtain ⟨e, i, vid, he, hn, hv, -, -⟩ :=
      enum_values R.wf R.enumTraits R.gen R.defs hm hnum hpos ha hj hty
    obtain ⟨e', he', hmem⟩ := gen_code_enum R.gen hm
    obtain ⟨ms, h1, h2, h3, h4, h5, h6, -, h7, h8, h9, h10, h11, h12, -⟩ :=
      enum_members R.wf (members_ok R.wf hm) hnum.stands hnum.distinct hnum.range he'
    rw [hty] at h8
    cases h8
    have hfind := enums_find (defs_ok R.defs).1 he
    have hfind' := enums_find (defs_ok R.defs).1 hmem
    rw [hn, hfind'] at hfind
    cases hfind
    have hcons := h6 hc (hpos hc)
    have hji := hcons i j (by simp [hv])
    have hlt := (List.getElem?_eq_some_iff.1 hv).1
    have hci : cfg.enum_impl_indexer = false ∧ cfg.enum_impl_std_trait = false := by
      simpa [Config.enum_complement_index] using hc
    obtain ⟨⟨kid, k'⟩, hki⟩ : ∃ y, e.variants[k.toNat]? = some y :=
      ⟨_, List.getElem?_eq_getElem (by omega)⟩
    have hkk := hcons k.toNat k' (by simp [hki])
    have : k' = k := by omega
    subst this
    obtain ⟨d, hd1, hd2⟩ := defs_lookup R.defs hmem
    obtain ⟨hnd, hdef⟩ := enum_meaning_ok hd1
    refine ⟨e, k'.toNat, kid, k', hmem, rfl, rfl, hki, fun _ => ?_, fun t ht => ?_⟩
    · rcases hdef with ⟨-, rfl⟩ | ⟨hx, -⟩
      · have hjr : j ≤ 2147483647 := by
          obtain ⟨j', hj'⟩ := zip_mem_left hnum.stands.length_eq ha
          have := stands_unique hj (forall₂_zip hnum.stands hj')
          subst this
          exact (hnum.range _ (List.of_mem_zip hj').2).2
        have hrep := rep_enum hd2 (vn := kid.str) (i := k'.toNat) (by simp [hki]) (by omega)
        have hcast : ((k'.toNat : Nat) : Int) = k' := by omega
        rw [hcast] at hrep
        exact ⟨hrep, rep_form hrep hb⟩
      · rw [h9, hci.1] at hx
        cases hx
    · simp only [fieldMeaning, hfind', h10, hci.2] at ht
      cases ht
  | enumOther hi ha hk hleast hlen hno =>
    rename_i a k
    obtain ⟨e, i, vid, he, hn, hv, g1, g2⟩ :=
      enum_values R.wf R.enumTraits R.gen R.defs hm hnum hpos ha hk hty
    obtain ⟨e', he', hmem⟩ := gen_code_enum R.gen hm
    obtain ⟨ms, h1, h2, h3, h4, h5, h6, -, h7, h8, h9, h10, h11, h12, -⟩ :=
      enum_members R.wf (members_ok R.wf hm) hnum.stands hnum.distinct hnum.range he'
    rw [hty] at h8
    cases h8
    have hfind := enums_find (defs_ok R.defs).1 he
    have hfind' := enums_find (defs_ok R.defs).1 hmem
    rw [hn, hfind'] at hfind
    cases hfind
    have hst : cfg.enum_impl_std_trait = false := by
      cases h : cfg.enum_impl_std_trait with
      | false => rfl
      | true => exact absurd ⟨hi, h⟩ R.enumTraits
    obtain ⟨d, hd1, hd2⟩ := defs_lookup R.defs hmem
    obtain ⟨hnd, hdef⟩ := enum_meaning_ok hd1
    refine ⟨e, i, vid, k, hmem, rfl, rfl, hv, fun hp => ⟨g1 hp, ?_⟩, fun t ht => ?_⟩
    · rcases hdef with ⟨hx, -⟩ | ⟨-, ix, hix, rfl⟩
      · rw [h9, hi] at hx
        cases hx
      · rw [h12, hi] at hix
        simp only [if_true, Option.some.injEq] at hix
        subst hix
        obtain ⟨w, hw, rfl⟩ := word_of_length hlen
        have hvm : e.variants = ms := h7 (by simp [Config.enum_complement_index, hi])
        have hf := Form.indexer (vn := vid.str) (i := i) (fs := none) (vs := []) (bs := []) hd2 hw ?_ ?_ (by simp) .nil
        · rwa [List.append_nil] at hf
        · have harm : arm (Int32.ofNat w).toInt (ms.map fun m => (m.2, m.1)) = none := by
            cases ha : arm (Int32.ofNat w).toInt (ms.map fun m => (m.2, m.1)) with
            | none => rfl
            | some id =>
              have := arm_some ha
              rw [List.mem_map] at this
              obtain ⟨m, hmm, hme⟩ := this
              simp only [Prod.mk.injEq] at hme
              obtain ⟨a', ha', -⟩ := h2 m hmm
              exact absurd (encode_word hw) (by
                rw [← hme.1]
                exact hno a' (List.of_mem_zip ha').1 m.2 (forall₂_zip hnum.stands ha'))
          obtain ⟨m, hh, hdm⟩ := h4
          have hmk : m = (vid, k) := by
            have hmm := List.mem_of_mem_head? hh
            obtain ⟨a', ha', -⟩ := h2 m hmm
            have hle := hleast a' (List.of_mem_zip ha').1 m.2 (forall₂_zip hnum.stands ha')
            have hvk : (vid, k) ∈ ms := hvm ▸ List.mem_of_getElem? hv
            have hge := head_least h3 hh hvk
            have : m.2 = k := by
              simp only at hge
              omega
            exact List.inj_on_of_nodup_map (pairwise_lt_nodup h3) hmm hvk this
          simp only [enumIndexerImpl, harm, hdm, hmk]
        · have hi' : (e.variants.map fun v => (v.1.str, (none : Option (List Ty))))[i]? = some (vid.str, none) := by
            simp [hv]
          exact ⟨hi', first_of_nodup (by simpa [List.map_map, Function.comp_def] using hnd) hi'⟩
    · simp only [fieldMeaning, hfind', h10, hst] at ht
      cases ht

theorem word_index {k : Nat} (hk : 0 ≤ (k : Int) ∧ (k : Int) ≤ 4294967295) :
    Int32.ofNat k = Int32.ofInt (asI32 k) := by
  rw [← Int32.toInt_inj, toInt_ofInt (asI32_range hk)]
  have h := toInt_word (w := k) (by omega)
  unfold asI32
  revert h
  generalize (Int32.ofNat k).toInt = z
  intro h
  split <;> omega

/-- The arm of a case. -/
theorem arm_takes (R : Run ds cfg n file defs dflt) {d : Declaration} {x : XVal} {m : Nat}
    (hd : ArmIn ds d) {b : Bytes} (hx : DeclaredF ds cfg d x b) (hrep : DeclTakes ds cfg file defs d x b)
    {ts : List Ty}
    (h : ArmTypes (setup_context ds cfg) m file.constants file.enums d ts) :
    ∃ vs, RepArm (Xdr.program defs) ts vs x ∧ Forms (Xdr.program defs) ts vs b := by
  rcases h with ⟨rfl, rfl⟩ | ⟨ty, op, t, h1, h2, rfl⟩
  · cases hx
    exact ⟨[], .void, .nil⟩
  · have hc : (setup_context ds cfg).config = cfg := rfl
    rw [hc] at h2
    unfold armField at h2
    split at h2
    · next hw =>
      simp only [bne_iff_ne, ne_eq, Bool.and_eq_true, Bool.not_eq_true'] at hw
      simp only [fieldMeaning, RTy.meaning, Option.some.injEq] at h2
      subst h2
      have hop := (hasOpaque_of R.rt h1 hw.1).1
      rcases R.ok.arms hw.2 d hd with hp | hp
      · obtain ⟨bs, p, rfl, hb, hpd, rfl⟩ := plainOpaque_takes hp hx
        have := takes_variableArray R.gen R.defs hb hpd
        exact ⟨_, .one this.1, one_forms this.2⟩
      · exact absurd hop hp
    · obtain ⟨v, hv, -⟩ := hrep (arm_atoms_ok R.wf hd) (by
          rintro ts nm m rfl
          exact R.ok.arrays ts nm m (.inr (.inr (.inl hd)))) m ty op h1 op.attr t
        (.inl ⟨rfl, fun _ ts hts hst name e as hn he => by
          subst hn
          exact R.ok.positions hst d name e as (.inr (.inl hd)) hts he⟩) h2
      exact ⟨_, .one hv.1, one_forms hv.2⟩

/-- The default arm. -/
theorem default_takes (R : Run ds cfg n file defs dflt) {d : Declaration}
    {x : XVal} {m : Nat} (hd : DefaultIn ds d) (hno : ¬ HasOpaque ds d) {b : Bytes} (hx : DeclaredF ds cfg d x b)
    (hrep : DeclTakes ds cfg file defs d x b) {ts : List Ty}
    (h : DefaultTypes (setup_context ds cfg) m file.constants d ts) :
    ∃ vs, RepArm (Xdr.program defs) ts vs x ∧ Forms (Xdr.program defs) ts vs b := by
  rcases h with ⟨rfl, rfl⟩ | ⟨ty, op, t, h1, h2, rfl⟩
  · cases hx
    exact ⟨[], .void, .nil⟩
  · have hop : op = .none := by
      by_contra hop
      exact hno (hasOpaque_of R.rt h1 hop).1
    subst hop
    obtain ⟨v, hv, -⟩ := hrep (default_atoms_ok R.wf hd) (by
        rintro ts nm m rfl
        exact R.ok.arrays ts nm m (.inr (.inr (.inr hd)))) m ty .none h1 .none t
      (.inl ⟨rfl, fun _ ts hts hst name e as hn he => by
        subst hn
        exact R.ok.positions hst d name e as (.inr (.inr (.inl hd))) hts he⟩) h2
    exact ⟨_, .one hv.1, one_forms hv.2⟩

/-- A discriminant with `XdrUnion`. -/
theorem cond_takes (R : Run ds cfg n file defs dflt) {u nm : Str} {b : UnionBody} {cond : TypeSpecifier}
    (hm : .type (.union u b) ∈ ds) (hcond : b.cond = .variable cond nm) {v : Value} {k : Int}
    (hs : Selects ds cond v k) {rc : RTy} {m : Nat} (hrc : condType (setup_context ds cfg) m cond = .ok rc)
    (hty : rc = .u32 ∨ rc = .bool ∨ ∃ e, .enum e ∈ file.types ∧ rc = .path e.name) {disc : Ty}
    (hdisc : rc.meaning file.constants = some disc) {xd : XVal}
    {c : Bytes} (hrep : TypedTakes ds cfg file defs cond xd c) {j : Int} (hj : discriminant xd = some j) :
    ∃ dv, RepF (Xdr.program defs) disc dv xd c ∧ IsNumber file disc dv j := by
  obtain ⟨h1, h2⟩ := selects_convert R.rt hs m
  unfold condType at hrc
  split at hrc
  · next p hp =>
    obtain ⟨ty, op⟩ := p
    cases hrc
    have := h2 ty op hp
    subst this
    obtain ⟨dv, hr, hn⟩ := hrep m ty .none hp .none disc (.inl ⟨rfl, fun _ hst name e as hname he => by
      subst hname
      exact R.ok.positions hst _ name e as (.inr (.inr (.inr ⟨u, b, hm, hcond⟩))) rfl he⟩) hdisc
    refine ⟨dv, hr, hn j hj ?_⟩
    rcases hty with rfl | rfl | ⟨e, he, rfl⟩
    · cases hdisc
      exact .inl rfl
    · cases hdisc
      exact .inr (.inl rfl)
    · cases hdisc
      exact .inr (.inr ⟨e, he, rfl⟩)
  · next e he => exact absurd he (h1 e)
  · cases hrc
  · cases hrc

/-- With `XdrUnion`: an arm. -/
theorem union_arm_takes (R : Run ds cfg n file defs dflt) {u nm : Str} {body : UnionBody}
    {cond : TypeSpecifier} {v : Value} {d : Declaration} {k : Int} {xd x : XVal} {b c : Bytes}
    (hbare : cfg.leeway.bareLabels = false)
    (hm : .type (.union u body) ∈ ds) (hcond : body.cond = .variable cond nm) (hl : (v, d) ∈ body.labels)
    (hsel : Selects ds cond v k) (hk : discriminant xd = some k)
    (hx : DeclaredF ds cfg d x c) (hrd : TypedTakes ds cfg file defs cond xd b)
    (hrx : DeclTakes ds cfg file defs d x c) {id : RIdent} (hid : upper_camel_case_ident u = .ok id) :
    ∃ val, RepF (Xdr.program defs) (.named id.str) val (.union xd x) (b ++ c) := by
  have hu : cfg.union_impl_union = true := by simpa [Config.leeway] using hbare
  obtain ⟨cond', nm', ks, hcond', hlab, h31⟩ := R.ok.unions u body hm
  rw [hcond] at hcond'
  cases hcond'
  obtain ⟨k', hk'⟩ := zip_mem_left hlab.selects.length_eq hl
  have hkk := hsel.unique R.ok.unambiguous (forall₂_zip hlab.selects hk')
  subst hkk
  have harm : ArmIn ds d := ⟨u, body, v, hm, hl⟩
  have hi : cfg.union_impl_indexer = false := by
    by_contra hi
    exact R.unionTraits ⟨by simpa using hi, hu⟩
  obtain ⟨ty, vars, impl, disc, rc, h1, h2, hnd, h3, h4, h5, -, -⟩ :=
    union_case R.wf R.ok.unambiguous R.enums hi hu R.gen R.defs hm hcond hlab
  rw [hid] at h1
  cases h1
  obtain ⟨hrc, hty⟩ := h3 (labels_ne R.wf hm)
  obtain ⟨dv, hdv, hnum⟩ := cond_takes R hm hcond hsel hrc hty h4 hrd hk
  obtain ⟨a, vid, ts, i, -, -, hv, ht, hn⟩ := h5 _ _ hk'
  obtain ⟨vs, hvs, hfs⟩ := arm_takes R harm hx hrx ht
  have hlen := ht.length.2
  exact ⟨_, rep_union h2 hv (first_of_nodup hnd hv) hdv.1 (hn dv hnum) hvs,
    .union h2 hdv.2 (hn dv hnum) ⟨hv, first_of_nodup hnd hv⟩ (by omega) hfs⟩

/-- Without `XdrUnion`: an arm. -/
theorem union_bare_takes (R : Run ds cfg n file defs dflt) {u nm : Str} {body : UnionBody}
    {cond : TypeSpecifier} {v : Value} {d : Declaration} {k : Nat} {x : XVal} {c : Bytes}
    (hbare : cfg.leeway.bareLabels = true)
    (hm : .type (.union u body) ∈ ds) (hcond : body.cond = .variable cond nm) (hl : (v, d) ∈ body.labels)
    (hsel : Selects ds cond v k) (hx : DeclaredF ds cfg d x c)
    (hrx : DeclTakes ds cfg file defs d x c) {id : RIdent} (hid : upper_camel_case_ident u = .ok id) :
    ∃ val, RepF (Xdr.program defs) (.named id.str) val (.union (.uint k) x) (Wire.word k ++ c) := by
  have hu : cfg.union_impl_union = false := by simpa [Config.leeway] using hbare
  obtain ⟨cond', nm', ks, hcond', hlab, h31⟩ := R.ok.unions u body hm
  rw [hcond] at hcond'
  cases hcond'
  obtain ⟨k', hk'⟩ := zip_mem_left hlab.selects.length_eq hl
  have hkk := hsel.unique R.ok.unambiguous (forall₂_zip hlab.selects hk')
  subst hkk
  have hkm := (List.of_mem_zip hk').2
  have hr := hlab.range _ hkm
  obtain ⟨bs, hb⟩ : ∃ bs, Rfc.encode (.uint k) = some bs := by
    simp only [Rfc.encode]
    exact Option.isSome_iff_exists.1 (unsigned_some 4 (by omega))
  have hbs := encode_discriminant (d := .uint k) (k := k) rfl hr.1 hb
  have harm : ArmIn ds d := ⟨u, body, v, hm, hl⟩
  by_cases hc : cfg.union_complement_index = true
  · obtain ⟨ty, vars, h1, h2, -, h3, -⟩ := serde_case R.wf R.ok.unambiguous hc R.gen R.defs hm hcond hlab
    rw [hid] at h1
    cases h1
    obtain ⟨a, vid, sh, -, -, hv, hsh, ht⟩ := h3 _ _ hk'
    rw [Int.toNat_natCast] at hv
    obtain ⟨vs, hvs, hfs⟩ := arm_takes R harm hx hrx ht
    have h31' := h31 hc _ hkm
    refine ⟨_, rep_variant h2 hv hsh (by omega) hvs ?_, .enum h2 (by omega) hv hfs⟩
    rw [encode_pos (by omega), hb, hbs, Int.toNat_natCast]
    rfl
  · have hi : cfg.union_impl_indexer = true := by
      simp [Config.union_complement_index] at hc
      by_contra hi
      rw [hc (by simpa using hi)] at hu
      cases hu
    obtain ⟨ty, vars, impl, h1, h2, hnd, h3, -, -⟩ :=
      indexer_case R.wf R.ok.unambiguous hi hu R.gen R.defs hm hcond hlab
    rw [hid] at h1
    cases h1
    obtain ⟨a, vid, fs, i, -, -, hv, ht, hidx, hn⟩ := h3 _ _ hk'
    obtain ⟨vs, hvs, hfs⟩ := arm_takes R harm hx hrx ht
    have hlen := ht.length.2
    refine ⟨_, rep_indexer h2 hv (first_of_nodup hnd hv) (hidx vs) hn hvs ?_,
      .indexer h2 (by omega) ?_ ⟨hv, first_of_nodup hnd hv⟩ (Nat.le_trans hlen (by decide)) hfs⟩
    · rw [toInt_ofInt (asI32_range hr), hb, hbs]
      simp only [Rfc.encode]
      exact asI32_signed hr
    · rw [word_index hr]
      exact hn

/-- Without flags: a label between those of the union. -/
theorem union_gap_takes (R : Run ds cfg n file defs dflt) {u nm : Str} {body : UnionBody}
    {cond : TypeSpecifier} {k : Nat} (hgap : cfg.leeway.unionGaps = true)
    (hm : .type (.union u body) ∈ ds) (hcond : body.cond = .variable cond nm)
    (hno : ∀ l ∈ body.labels, ¬ Selects ds cond l.1 k)
    (hk : UpToLabels ds body cond k)
    {id : RIdent} (hid : upper_camel_case_ident u = .ok id) :
    ∃ val, RepF (Xdr.program defs) (.named id.str) val (.union (.uint k) .void) (Wire.word k) := by
  replace hc : cfg.union_complement_index = true := hgap
  obtain ⟨cond', nm', ks, hcond', hlab, h31⟩ := R.ok.unions u body hm
  rw [hcond] at hcond'
  cases hcond'
  obtain ⟨ty, vars, h1, h2, -, h3, m, h4, h5, h6, h7, h8⟩ :=
    serde_case R.wf R.ok.unambiguous hc R.gen R.defs hm hcond hlab
  rw [hid] at h1
  cases h1
  have hkn : (k : Int) ∉ ks := by
    intro hkk
    obtain ⟨l, hl⟩ := zip_mem_right hlab.selects.length_eq hkk
    exact hno l (List.of_mem_zip hl).1 (forall₂_zip hlab.selects hl)
  have hkm : k < m ∧ k < 2 ^ 31 := by
    rcases hk with ⟨l, hl, j, hj, hkj⟩ | ⟨rfl, hk⟩
    · obtain ⟨j', hj'⟩ := zip_mem_left hlab.selects.length_eq hl
      have := hj.unique R.ok.unambiguous (forall₂_zip hlab.selects hj')
      subst this
      have hjm := (List.of_mem_zip hj').2
      have g1 := h6 j hjm
      have g2 := h31 hc j hjm
      omega
    · have g := serde_bool_length R hc hm hcond hid h2
      cases hdd : body.default with
      | none =>
        rw [hdd, h7 hdd] at g
        simp only [Option.toList_none, List.length_nil] at g
        omega
      | some d =>
        rw [hdd, (h8 d hdd).1] at g
        simp only [Option.toList_some, List.length_cons, List.length_nil] at g
        omega
  obtain ⟨vn, hv, -⟩ := h4 k hkm.1 hkn
  refine ⟨_, rep_variant h2 hv (.inl rfl) (by omega) .void ?_, ?_⟩
  · obtain ⟨bs, hb⟩ : ∃ bs, Rfc.encode (.uint k) = some bs := by
      simp only [Rfc.encode]
      exact Option.isSome_iff_exists.1 (unsigned_some 4 (by omega))
    rw [encode_pos hkm.2, hb, encode_discriminant (d := .uint k) (k := k) rfl (by omega) hb, Int.toNat_natCast]
    rfl
  · have := Form.enum h2 hkm.2 hv .nil
    rwa [List.append_nil] at this

/-- Without flags: the number of the default arm. -/
theorem union_next_takes (R : Run ds cfg n file defs dflt) (hdf : DefaultsRead ds cfg) {u nm : Str}
    {body : UnionBody} {cond : TypeSpecifier} {d : Declaration} {k : Nat} {x : XVal} {c : Bytes}
    (hgap : cfg.leeway.unionGaps = true) (hm : .type (.union u body) ∈ ds)
    (hcond : body.cond = .variable cond nm) (hdd : body.default = some d) (hk : k < 2147483648)
    (hnext : ∀ i : Nat, UpToLabels ds body cond i ↔ i < k) (hx : DeclaredF ds cfg d x c)
    (hrx : DeclTakes ds cfg file defs d x c) {id : RIdent} (hid : upper_camel_case_ident u = .ok id) :
    ∃ val, RepF (Xdr.program defs) (.named id.str) val (.union (.uint k) x) (Wire.word k ++ c) := by
  replace hc : cfg.union_complement_index = true := hgap
  have hnu : cfg.union_impl_union = false := by
    simp [Config.union_complement_index] at hc
    exact hc.2
  obtain ⟨cond', nm', ks, hcond', hlab, -⟩ := R.ok.unions u body hm
  rw [hcond] at hcond'
  cases hcond'
  obtain ⟨ty, vars, h1, h2, -, -, m, -, h5, h6, -, h8⟩ :=
    serde_case R.wf R.ok.unambiguous hc R.gen R.defs hm hcond hlab
  rw [hid] at h1
  cases h1
  obtain ⟨hlen, sh, hv, -, g2, g3⟩ := h8 d hdd
  have hmk : m = k := by
    have g := default_number R hc hm hcond hlab hid h2 hdd hlen h5 h6
    have g1 := (hnext m).symm.trans (g m)
    have g4 := (hnext k).symm.trans (g k)
    omega
  subst hmk
  have hno : ¬ HasOpaque ds d := by
    rcases hdf u body d hm hdd with h | h
    · rw [hnu] at h
      cases h
    · exact h.2.1
  obtain ⟨vs, hvs, hfs⟩ := default_takes R ⟨u, body, hm, hdd⟩ hno hx hrx g3
  exact ⟨_, rep_variant h2 hv g2 (by omega) hvs (encode_uint hk), .enum h2 hk hv hfs⟩

/-- A value of a union that takes the default arm. -/
theorem union_default_takes (R : Run ds cfg n file defs dflt) {u nm : Str} {body : UnionBody}
    {cond : TypeSpecifier} {d : Declaration} {k : Int} {xd x : XVal} {b c : Bytes}
    (hbare : cfg.leeway.bareLabels = false)
    (hm : .type (.union u body) ∈ ds) (hcond : body.cond = .variable cond nm) (hdd : body.default = some d)
    (hno : ∀ l ∈ body.labels, ¬ Selects ds cond l.1 k) (hk : discriminant xd = some k)
    (hx : DeclaredF ds cfg d x c) (hrd : TypedTakes ds cfg file defs cond xd b)
    (hrx : DeclTakes ds cfg file defs d x c) {id : RIdent} (hid : upper_camel_case_ident u = .ok id) :
    ∃ val, RepF (Xdr.program defs) (.named id.str) val (.union xd x) (b ++ c) := by
  have hu : cfg.union_impl_union = true := by simpa [Config.leeway] using hbare
  have hi : cfg.union_impl_indexer = false := by
    by_contra hi
    exact R.unionTraits ⟨by simpa using hi, hu⟩
  obtain ⟨cond', nm', ks, hcond', hlab, h31⟩ := R.ok.unions u body hm
  rw [hcond] at hcond'
  cases hcond'
  obtain ⟨ty, vars, impl, disc, rc, h1, h2, hnd, h3, h4, -, h5, h6⟩ :=
    union_case R.wf R.ok.unambiguous R.enums hi hu R.gen R.defs hm hcond hlab
  rw [hid] at h1
  cases h1
  obtain ⟨hrc, hty⟩ := h3 (labels_ne R.wf hm)
  obtain ⟨l, hl⟩ := List.exists_mem_of_ne_nil _ (labels_ne R.wf hm)
  obtain ⟨k', hlk⟩ := zip_mem_left hlab.selects.length_eq hl
  obtain ⟨dv, hdv, hnum⟩ := cond_takes R hm hcond (forall₂_zip hlab.selects hlk) hrc hty h4 hrd hk
  have hkn : k ∉ ks := by
    intro hkk
    obtain ⟨l, hl⟩ := zip_mem_right hlab.selects.length_eq hkk
    exact hno l (List.of_mem_zip hl).1 (forall₂_zip hlab.selects hl)
  have hn := h5 k hkn dv hnum
  rw [hdd] at hn
  obtain ⟨i, ts, hv, ht⟩ := h6 d hdd
  obtain ⟨vs, hvs, hfs⟩ := default_takes R ⟨u, body, hm, hdd⟩ (R.ok.defaults hu d ⟨u, body, hm, hdd⟩) hx hrx ht
  have hlen := ht.length.2
  exact ⟨_, rep_union h2 hv (first_of_nodup hnd hv) hdv.1 hn hvs,
    .union h2 hdv.2 hn ⟨hv, first_of_nodup hnd hv⟩ (by omega) hfs⟩

/-- A value of a structure. -/
theorem struct_takes (R : Run ds cfg n file defs dflt) {s : Str} {ms : List Declaration} {xs : List XVal}
    {b : Bytes} (hm : .type (.struct s ms) ∈ ds) (h : MembersTakes ds cfg file defs ms xs b) {id : RIdent}
    (hid : upper_camel_case_ident s = .ok id) :
    ∃ val, RepF (Xdr.program defs) (.named id.str) val (.struct xs) b := by
  obtain ⟨st, hst, hmem⟩ := gen_code_struct R.gen hm
  obtain ⟨h1, h2⟩ := convert_struct_ok hst
  rw [hid] at h1
  cases h1
  obtain ⟨d, hd1, hd2⟩ := defs_lookup R.defs hmem
  simp only [Item.meaning, StructItem.meaning] at hd1
  split at hd1
  · simp only [Option.map_eq_some_iff] at hd1
    obtain ⟨fs, hfs, rfl⟩ := hd1
    obtain ⟨vs, hvs, hfm⟩ := h (fun d hd => ⟨⟨s, ms, hm, hd⟩, member_atoms_ok R.wf ⟨s, ms, hm, hd⟩⟩) n s st.fields fs h2 hfs
    exact ⟨_, rep_struct hd2 hvs, .struct hd2 hfm⟩
  · cases hd1

/-- A member of a structure. -/
theorem member_takes (R : Run ds cfg n file defs dflt) {d : Declaration} {x : XVal} {b : Bytes} (hd : MemberIn ds d)
    (hrep : DeclTakes ds cfg file defs d x b) {m : Nat} {name : Str} {r : Attr × RIdent × RTy}
    (h : convertField (setup_context ds cfg) m name d = .ok r) {t : Ty}
    (ht : fieldMeaning file.constants file.enums r.1 r.2.2 = some t) :
    ∃ v, RepF (Xdr.program defs) t v x b := by
  obtain ⟨f, ts, ty, op, -, hts, hty, -, hr2, hr1⟩ := convertField_ok h
  have hcfg : (setup_context ds cfg).config = cfg := rfl
  rw [hcfg] at hr1
  have hattr : (r.1 = op.attr ∧ (op = .none → ∀ ts, d.type_specifier = some ts → UseOk ds cfg ts)) ∨
     (op = .none ∧ r.1 = .signed32 ∧ ∃ ts, d.type_specifier = some ts ∧
      (setup_context ds cfg).is_enum_type ts = true) := by
    cases op with
    | fixed => exact .inl ⟨hr1, fun h => by cases h⟩
    | «variable» => exact .inl ⟨hr1, fun h => by cases h⟩
    | none =>
      simp only at hr1
      split at hr1
      · next hb =>
        simp only [Bool.and_eq_true] at hb
        exact .inr ⟨rfl, hr1, ts, hts, hb.2⟩
      · next hb =>
        refine .inl ⟨hr1, fun _ ts' hts' hst nm e as hnm he => ?_⟩
        rw [hts] at hts'
        cases hts'
        subst hnm
        exact absurd (by simp [hst, is_enum_type_of he]) hb
  have hmean : fieldMeaning file.constants file.enums r.1 ty = some t := by
    rw [hr2] at ht
    split at ht
    · cases hr1' : r.1 with
      | none =>
        rw [hr1'] at ht
        exact ht
      | _ =>
        rw [hr1'] at ht
        simp [fieldMeaning] at ht
    · exact ht
  obtain ⟨v, hv, -⟩ := hrep (member_atoms_ok R.wf hd) (by
      rintro ts nm m rfl
      exact R.ok.arrays ts nm m (.inr (.inl hd))) m ty op hty r.1 t hattr hmean
  exact ⟨v, hv⟩

/-- A value of a named type. -/
theorem name_takes (R : Run ds cfg n file defs dflt) {name : Str} {t : TypeDef} {x : XVal} {b : Bytes}
    (ht : typeOf ds name = some t) (hrep : DefinedTakes ds cfg file defs t x b) :
    TypedTakes ds cfg file defs (.identifier name) x b := by
  intro m rty op hc attr ty hattr hmean
  simp only [convert_primitive_token] at hc
  obtain ⟨hmem, hname⟩ := typeOf_mem ht
  cases t with
  | declaration d =>
    rcases resolve_type_ok R.rt hc with ⟨d', hd', hct⟩ | ⟨hno, -⟩
    · rw [ht] at hd'
      cases hd'
      have hty : TypedefIn ds d := hmem
      refine hrep (typedef_atoms_ok R.wf hty) (by
          rintro ts nm m rfl
          exact R.ok.arrays ts nm m (.inl hty)) m rty op hct attr ty (.inl ⟨?_, ?_⟩) hmean
      · rcases hattr with ⟨h, -⟩ | ⟨-, -, h⟩
        · exact h
        · obtain ⟨as, -, h'⟩ := enum_name R.ok.unambiguous h
          rw [ht] at h'
          cases h'
      · intro _ ts hts hst nm e as hnm he
        subst hnm
        exact R.ok.positions hst d nm e as (.inl hty) hts he
    · exact absurd ht (hno d)
  | enum e as =>
    cases hname
    rcases resolve_type_ok R.rt hc with ⟨d', hd', -⟩ | ⟨-, id, hid, hr⟩
    · rw [ht] at hd'
      cases hd'
    · cases hr
      obtain ⟨e, i, vid, k, he, rfl, rfl, hv, g1, g2⟩ := enum_takes R hmem hrep hid
      rcases hattr with ⟨rfl, huse⟩ | ⟨-, rfl, -⟩
      · simp only [OpaqueType.attr, fieldMeaning, RTy.meaning, Option.some.injEq] at hmean
        subst hmean
        refine ⟨_, g1 (fun hst => huse rfl hst name name as rfl ht), ?_⟩
        intro k' hk' _
        cases hk'
        exact ⟨e, vid, he, rfl, hv⟩
      · refine ⟨_, g2 ty hmean, ?_⟩
        intro k' _ hty
        simp only [fieldMeaning, enums_find (defs_ok R.defs).1 he] at hmean
        split at hmean
        · cases hmean
          rcases hty with h | h | ⟨_, -, h⟩ <;> cases h
        · cases hmean
  | struct s ms =>
    cases hname
    rcases resolve_type_ok R.rt hc with ⟨d', hd', -⟩ | ⟨-, id, hid, hr⟩
    · rw [ht] at hd'
      cases hd'
    · cases hr
      obtain ⟨⟨v, hv⟩, hdisc⟩ := hrep id hid
      rcases hattr with ⟨rfl, -⟩ | ⟨-, -, h⟩
      · simp only [OpaqueType.attr, fieldMeaning, RTy.meaning, Option.some.injEq] at hmean
        subst hmean
        exact ⟨v, hv, numOk_none hdisc⟩
      · obtain ⟨as, -, h'⟩ := enum_name R.ok.unambiguous h
        rw [ht] at h'
        cases h'
  | union u b =>
    cases hname
    rcases resolve_type_ok R.rt hc with ⟨d', hd', -⟩ | ⟨-, id, hid, hr⟩
    · rw [ht] at hd'
      cases hd'
    · cases hr
      obtain ⟨⟨v, hv⟩, hdisc⟩ := hrep id hid
      rcases hattr with ⟨rfl, -⟩ | ⟨-, -, h⟩
      · simp only [OpaqueType.attr, fieldMeaning, RTy.meaning, Option.some.injEq] at hmean
        subst hmean
        exact ⟨v, hv, numOk_none hdisc⟩
      · obtain ⟨as, -, h'⟩ := enum_name R.ok.unambiguous h
        rw [ht] at h'
        cases h'

/-- A value of a type without name. -/
theorem prim_takes {ts : TypeSpecifier} {x : XVal} {b : Bytes} (hn : ∀ name, ts ≠ .identifier name) {rty : RTy} {t : Ty}
    (hc : ∀ ct cxt, convert_primitive_token ct cxt ts = .ok (rty, .none))
    (hm : rty.meaning file.constants = some t) {v : Val}
    (hv : Rep (Xdr.program defs) t v x) (hf : Form (Xdr.program defs) t v b) (hnum : NumOk file t v x) :
    TypedTakes ds cfg file defs ts x b := by
  intro m rty' op hc' attr t' hattr hmean
  rw [hc] at hc'
  cases hc'
  have := attr_plain hattr hn
  subst this
  simp only [OpaqueType.attr, fieldMeaning] at hmean
  rw [hm] at hmean
  cases hmean
  exact ⟨v, ⟨hv, hf⟩, hnum⟩

theorem fixedArray_takes (R : Run ds cfg n file defs dflt) {ts : TypeSpecifier} {nm : Str} {v : Value}
    {xs : List XVal} {b : Bytes} (hs : Stands ds v xs.length) (h : EachTakes ds cfg file defs ts xs b) :
    DeclTakes ds cfg file defs (.fixedArray ts nm v) (.arrayFixed xs) b := by
  intro hat _ m rty op hc attr t hattr hmean
  cases m with
  | zero => cases hc
  | succ m =>
    simp only [convert_type_token, convertTypeWith, GR.bind_eq_ok, GR.ok.injEq, Option.some.injEq,
      Prod.mk.injEq] at hc
    obtain ⟨⟨ty, op'⟩, hty, len, hlen, rfl, rfl⟩ := hc
    simp only at hattr hmean
    obtain ⟨rfl, t', k, ht', hk, rfl⟩ := meaning_array hmean (by
      rintro rfl rfl
      have hop : op' ≠ .none := by
        rintro rfl
        rcases hattr with ⟨h, -⟩ | ⟨-, h, -⟩ <;> cases h
      rcases (hasOpaque_prim R.rt hty hop []).2 with ⟨_, _, _, h⟩ | ⟨_, h⟩ | ⟨_, h⟩ <;> cases h)
    rcases hattr with ⟨h1, h2⟩ | ⟨-, h, -⟩
    · have := attr_none h1.symm
      subst this
      have hlen' := array_len (by
        intro a ha
        exact hat a (by simp [Declaration.atoms, ha])) hlen hk hs
      subst hlen'
      obtain ⟨vs, hvs, hfm⟩ := h m ty hty (h2 rfl ts rfl) t' ht'
      exact ⟨_, ⟨rep_array hvs, .array hfm⟩, numOk_none rfl⟩
    · cases h

theorem variableArray_takes (R : Run ds cfg n file defs dflt) {ts : TypeSpecifier} {nm : Str}
    {mx : Option Value} {xs : List XVal} {b : Bytes} (hl : xs.length < 2 ^ 32) (hx : EachF ds cfg ts xs b)
    (h : EachTakes ds cfg file defs ts xs b) :
    DeclTakes ds cfg file defs (.variableArray ts nm mx) (.arrayVar xs) (Wire.word xs.length ++ b) := by
  intro hat hok m rty op hc attr t hattr hmean
  cases m with
  | zero => cases hc
  | succ m =>
    simp only [convert_type_token, convertTypeWith, GR.bind_eq_ok] at hc
    obtain ⟨⟨ty, op'⟩, hty, hc⟩ := hc
    simp only at hc
    split at hc
    · next hop =>
      subst hop
      simp only [GR.ok.injEq, Option.some.injEq, Prod.mk.injEq] at hc
      obtain ⟨rfl, rfl⟩ := hc
      obtain ⟨rfl, t', ht', rfl⟩ := meaning_vec hmean (fun _ => by simp)
      cases ht'
      have hop := (hasOpaque_prim R.rt hty (by simp) nm).1
      rcases hok ts nm mx rfl with hp | hp
      · obtain ⟨vs, hvs, hfm⟩ := hx.typed (defs := defs) (.named variableArrayName) (by
          intro x b hxm
          obtain ⟨bs, p, rfl, hb, hpd, rfl⟩ := plainOpaque_takes hp (.variable hxm)
          exact ⟨_, takes_variableArray R.gen R.defs hb hpd⟩)
        exact ⟨_, ⟨rep_vec hvs hl, .vec hl hfm⟩, numOk_none rfl⟩
      · exact absurd hop hp
    · next hop =>
      simp only [GR.ok.injEq, Option.some.injEq, Prod.mk.injEq] at hc
      obtain ⟨rfl, rfl⟩ := hc
      obtain ⟨rfl, t', ht', rfl⟩ := meaning_vec hmean (by
        rintro rfl rfl
        have hop : op' ≠ .none := by
          rintro rfl
          rcases hattr with ⟨h, -⟩ | ⟨-, h, -⟩ <;> cases h
        rcases (hasOpaque_prim R.rt hty hop []).2 with ⟨_, _, _, h⟩ | ⟨_, h⟩ | ⟨_, h⟩ <;> cases h)
      rcases hattr with ⟨h1, h2⟩ | ⟨-, h, -⟩
      · have := attr_none h1.symm
        subst this
        obtain ⟨vs, hvs, hfm⟩ := h m ty hty (h2 rfl ts rfl) t' ht'
        exact ⟨_, ⟨rep_vec hvs hl, .vec hl hfm⟩, numOk_none rfl⟩
      · cases h

theorem opaqueFixed_takes (R : Run ds cfg n file defs dflt) {nm : Str} {v : Value} {bs p : Bytes}
    (hs : Stands ds v bs.length) (hp : Wire.Padding bs.length p) :
    DeclTakes ds cfg file defs (.opaqueFixedArray nm v) (.opaqueFixed bs) (bs ++ p) := by
  intro hat _ m rty op hc attr t hattr hmean
  cases m with
  | zero => cases hc
  | succ m =>
    simp only [convert_type_token, convertTypeWith, GR.bind_eq_ok, GR.ok.injEq, Option.some.injEq,
      Prod.mk.injEq] at hc
    obtain ⟨len, hlen, rfl, rfl⟩ := hc
    rcases hattr with ⟨rfl, -⟩ | ⟨h, -⟩
    · simp only [OpaqueType.attr, fieldMeaning, arrayTy] at hmean
      split at hmean
      · next k hk =>
        have := opaque_len R.wf (gen_code_ok.1 R.gen).1 (by
          intro a ha
          exact hat a (by simp [Declaration.atoms, ha])) hlen hk hs
        subst this
        split at hmean
        · cases hmean
          exact ⟨_, ⟨rep_opaqueFixed _ bs, .opaqueFixed hp⟩, numOk_none rfl⟩
        · cases hmean
      · cases hmean
    · cases h

theorem opaqueVar_takes {nm : Str} {mx : Option Value} {bs p : Bytes} (hl : bs.length < 2 ^ 32)
    (hp : Wire.Padding bs.length p) :
    DeclTakes ds cfg file defs (.opaqueVariableArray nm mx) (.opaqueVar bs) (Wire.word bs.length ++ (bs ++ p)) := by
  intro hat _ m rty op hc attr t hattr hmean
  cases m with
  | zero => cases hc
  | succ m =>
    simp only [convert_type_token, convertTypeWith, GR.ok.injEq, Option.some.injEq, Prod.mk.injEq] at hc
    obtain ⟨rfl, rfl⟩ := hc
    rcases hattr with ⟨rfl, -⟩ | ⟨h, -⟩
    · simp only [OpaqueType.attr, fieldMeaning, Option.some.injEq] at hmean
      subst hmean
      exact ⟨_, ⟨rep_opaqueVar hl, .opaqueVar hl hp⟩, numOk_none rfl⟩
    · cases h

theorem string_takes {nm : Str} {mx : Option Value} {s : List Char} {p : Bytes}
    (hl : (utf8Bytes s).length < 2 ^ 32) (hp : Wire.Padding (utf8Bytes s).length p) :
    DeclTakes ds cfg file defs (.string nm mx) (.string (utf8Bytes s))
      (Wire.word (utf8Bytes s).length ++ (utf8Bytes s ++ p)) := by
  intro hat _ m rty op hc attr t hattr hmean
  cases m with
  | zero => cases hc
  | succ m =>
    simp only [convert_type_token, convertTypeWith, GR.ok.injEq, Option.some.injEq, Prod.mk.injEq] at hc
    obtain ⟨rfl, rfl⟩ := hc
    rcases hattr with ⟨rfl, -⟩ | ⟨-, rfl, -⟩
    · simp only [OpaqueType.attr, fieldMeaning, RTy.meaning, Option.some.injEq] at hmean
      subst hmean
      exact ⟨_, ⟨rep_string hl, .string hl hp⟩, numOk_none rfl⟩
    · simp [fieldMeaning] at hmean

theorem option_takes {ts : TypeSpecifier} {nm : Str} {x : XVal} {b : Bytes}
    (hx : x = .optNone ∧ b = Wire.word 0 ∨ ∃ y w c, x = .optSome y ∧ w < 2 ^ 32 ∧ w ≠ 0 ∧ b = Wire.word w ++ c ∧
      TypedTakes ds cfg file defs ts y c) :
    DeclTakes ds cfg file defs (.optionVariable ts nm) x b := by
  intro hat _ m rty op hc attr t hattr hmean
  cases m with
  | zero => cases hc
  | succ m =>
    simp only [convert_type_token, convertTypeWith, GR.bind_eq_ok, GR.ok.injEq, Option.some.injEq] at hc
    obtain ⟨⟨ty, op'⟩, hty, hc⟩ := hc
    cases hc
    obtain ⟨rfl, t', ht', rfl⟩ := meaning_option hmean
    rcases hattr with ⟨h1, h2⟩ | ⟨-, h, -⟩
    · have := attr_none h1.symm
      subst this
      rcases hx with ⟨rfl, rfl⟩ | ⟨y, w, c, rfl, hw, hw', rfl, hy⟩
      · exact ⟨_, ⟨rep_optNone _ t', .none⟩, numOk_none rfl⟩
      · obtain ⟨v, hv, -⟩ := hy m ty .none hty .none t' (.inl ⟨rfl, fun h => h2 h ts rfl⟩) ht'
        exact ⟨_, ⟨rep_optSome hv.1, .some hw hw' hv.2⟩, numOk_none rfl⟩
    · cases h

theorem variable_takes {ts : TypeSpecifier} {nm : Str} {x : XVal} {b : Bytes} (h : TypedTakes ds cfg file defs ts x b) :
    DeclTakes ds cfg file defs (.variable ts nm) x b := by
  intro hat _ m rty op hc attr t hattr hmean
  cases m with
  | zero => cases hc
  | succ m =>
    simp only [convert_type_token, convertTypeWith, GR.bind_eq_ok, GR.ok.injEq, Option.some.injEq] at hc
    obtain ⟨⟨ty, op'⟩, hty, hc⟩ := hc
    cases hc
    refine h m rty op hty attr t ?_ hmean
    rcases hattr with ⟨h1, h2⟩ | ⟨h1, h2, ts', h3, h4⟩
    · exact .inl ⟨h1, fun h => h2 h ts rfl⟩
    · cases h3
      exact .inr ⟨h1, h2, h4⟩

theorem takes_members_nil : MembersTakes ds cfg file defs [] [] [] := by
  intro _ m name fields fs h hfs
  cases h
  simp only [fieldsMeaning, Option.some.injEq] at hfs
  subst hfs
  exact ⟨[], .nil, .nil⟩

theorem takes_members_cons (R : Run ds cfg n file defs dflt) {d : Declaration} {ms : List Declaration} {x : XVal}
    {xs : List XVal} {b c : Bytes} (h1 : DeclTakes ds cfg file defs d x b) (h2 : MembersTakes ds cfg file defs ms xs c) :
    MembersTakes ds cfg file defs (d :: ms) (x :: xs) (b ++ c) := by
  intro hok m name fields fs h hfs
  cases h with
  | cons ha hb =>
    rename_i r rs
    obtain ⟨attr, f, ty⟩ := r
    simp only [fieldsMeaning] at hfs
    split at hfs
    · split at hfs
      · next t fs' ht hfs' =>
        cases hfs
        obtain ⟨v, hv⟩ := member_takes R (hok d List.mem_cons_self).1 h1 ha ht
        obtain ⟨vs, hvs, hfm⟩ := h2 (fun d hd => hok d (List.mem_cons_of_mem _ hd)) m name rs fs' hb hfs'
        exact ⟨_, .cons hv.1 hvs, .cons hv.2 hfm⟩
      · cases hfs
    · cases hfs

theorem takes_each_nil {ts : TypeSpecifier} : EachTakes ds cfg file defs ts [] [] :=
  fun _ _ _ _ _ _ => ⟨[], .nil, .nil⟩

theorem takes_each_cons {ts : TypeSpecifier} {x : XVal} {xs : List XVal} {b c : Bytes}
    (h1 : TypedTakes ds cfg file defs ts x b)
    (h2 : EachTakes ds cfg file defs ts xs c) : EachTakes ds cfg file defs ts (x :: xs) (b ++ c) := by
  intro m rty hc hu t ht
  obtain ⟨v, hv, -⟩ := h1 m rty .none hc .none t (.inl ⟨rfl, fun _ => hu⟩) ht
  obtain ⟨vs, hvs, hfm⟩ := h2 m rty hc hu t ht
  exact ⟨_, .cons hv.1 hvs, .cons hv.2 hfm⟩

theorem i8_form {env : Env} {k : Int} {w : Nat} (hw : w < 2 ^ 32) (h1 : -128 ≤ k) (h2 : k ≤ 127)
    (h : (w : Int) % 256 = k % 256) : Form env .i8 (.i8 (Int8.ofInt k)) (Wire.word w) := by
  have : Int8.ofInt k = Int8.ofNat w := by
    rw [← Int8.toInt_inj, Int8.toInt_ofInt_of_le (by simpa using h1) (by simp; omega), Int8.toInt_ofNat']
    simp only [Int.bmod, Int8.size]
    omega
  rw [this]
  exact .i8 hw

theorem i16_form {env : Env} {k : Int} {w : Nat} (hw : w < 2 ^ 32) (h1 : -32768 ≤ k) (h2 : k ≤ 32767)
    (h : (w : Int) % 65536 = k % 65536) : Form env .i16 (.i16 (Int16.ofInt k)) (Wire.word w) := by
  have : Int16.ofInt k = Int16.ofNat w := by
    rw [← Int16.toInt_inj, Int16.toInt_ofInt_of_le (by simpa using h1) (by simp; omega), Int16.toInt_ofNat']
    simp only [Int.bmod, Int16.size]
    omega
  rw [this]
  exact .i16 hw

theorem u8_form {env : Env} {w : Nat} (hw : w < 2 ^ 32) :
    Form env .u8 (.u8 (UInt8.ofNat (w % 2 ^ 8))) (Wire.word w) := by
  have : UInt8.ofNat (w % 2 ^ 8) = UInt8.ofNat w := by
    rw [← UInt8.toNat_inj, UInt8.toNat_ofNat', UInt8.toNat_ofNat']
    omega
  rw [this]
  exact .u8 hw

theorem u16_form {env : Env} {w : Nat} (hw : w < 2 ^ 32) :
    Form env .u16 (.u16 (UInt16.ofNat (w % 2 ^ 16))) (Wire.word w) := by
  have : UInt16.ofNat (w % 2 ^ 16) = UInt16.ofNat w := by
    rw [← UInt16.toNat_inj, UInt16.toNat_ofNat', UInt16.toNat_ofNat']
    omega
  rw [this]
  exact .u16 hw

/-- A number that has an encoding. -/
theorem signed_range {n : Nat} {k : Int} {b : Bytes} (h : Rfc.signed n k = some b) :
    -(2 ^ (8 * n - 1) : Int) ≤ k ∧ k < 2 ^ (8 * n - 1) := by
  unfold Rfc.signed at h
  split at h
  · assumption
  · cases h

theorem unsigned_range {n k : Nat} {b : Bytes} (h : Rfc.unsigned n k = some b) : k < 2 ^ (8 * n) := by
  unfold Rfc.unsigned at h
  split at h
  · assumption
  · cases h

theorem exact_takes {ts : TypeSpecifier} {x : XVal} {b : Bytes} (hn : ∀ name, ts ≠ .identifier name) {rty : RTy}
    {t : Ty} (hc : ∀ ct cxt, convert_primitive_token ct cxt ts = .ok (rty, .none))
    (hm : rty.meaning file.constants = some t) {v : Val} (hb : Rfc.encode x = some b)
    (hv : Rep (Xdr.program defs) t v x) (hnum : NumOk file t v x) :
    TypedTakes ds cfg file defs ts x b := prim_takes hn hc hm hv (rep_form hv hb) hnum

mutual

theorem TypedF.takes (R : Run ds cfg n file defs dflt) (hdf : DefaultsRead ds cfg) :
    ∀ {ts x b}, TypedF ds cfg ts x b → TypedTakes ds cfg file defs ts x b
  | _, _, _, .int h => by
    have hr := signed_range (n := 4) h
    exact exact_takes (by simp) (fun _ _ => rfl) rfl h (rep_int (by omega) (by omega))
      (numOk_ty (by simp) (by simp) (by simp))
  | _, _, _, .uint h => by
    have hr := unsigned_range (n := 4) h
    exact exact_takes (by simp) (fun _ _ => rfl) rfl h (rep_uint (by omega)) (isNumber_uint (by omega))
  | _, _, _, .hyper h => by
    have hr := signed_range (n := 8) h
    exact exact_takes (by simp) (fun _ _ => rfl) rfl h (rep_hyper (by omega) (by omega))
      (numOk_ty (by simp) (by simp) (by simp))
  | _, _, _, .uhyper h => by
    have hr := unsigned_range (n := 8) h
    exact exact_takes (by simp) (fun _ _ => rfl) rfl h (rep_uhyper (by omega)) (numOk_ty (by simp) (by simp) (by simp))
  | _, _, _, .float h => by
    have hr := unsigned_range (n := 4) h
    exact exact_takes (by simp) (fun _ _ => rfl) rfl h (rep_float (by omega)) (numOk_ty (by simp) (by simp) (by simp))
  | _, _, _, .double h => by
    have hr := unsigned_range (n := 8) h
    exact exact_takes (by simp) (fun _ _ => rfl) rfl h (rep_double (by omega)) (numOk_ty (by simp) (by simp) (by simp))
  | _, _, _, .bool h => prim_takes (by simp) (fun _ _ => rfl) rfl (rep_bool _ _) (.bool h) (isNumber_bool _)
  | _, _, _, .char h h1 h2 h3 => prim_takes (by simp) (fun _ _ => rfl) rfl (rep_i8 h1 h2) (i8_form h h1 h2 h3)
      (numOk_ty (by simp) (by simp) (by simp))
  | _, _, _, .uchar h => prim_takes (by simp) (fun _ _ => rfl) rfl (rep_u8 (Nat.mod_lt _ (by decide))) (u8_form h)
      (numOk_ty (by simp) (by simp) (by simp))
  | _, _, _, .short h h1 h2 h3 => prim_takes (by simp) (fun _ _ => rfl) rfl (rep_i16 h1 h2) (i16_form h h1 h2 h3)
      (numOk_ty (by simp) (by simp) (by simp))
  | _, _, _, .ushort h => prim_takes (by simp) (fun _ _ => rfl) rfl (rep_u16 (Nat.mod_lt _ (by decide))) (u16_form h)
      (numOk_ty (by simp) (by simp) (by simp))
  | _, _, _, .name h1 h2 => name_takes R h1 (DefinedF.takes R hdf h2 (typeOf_mem h1).1)

theorem DefinedF.takes (R : Run ds cfg n file defs dflt) (hdf : DefaultsRead ds cfg) :
    ∀ {t x b}, DefinedF ds cfg t x b → .type t ∈ ds → DefinedTakes ds cfg file defs t x b
  | _, _, _, .typedef h, _ => DeclaredF.takes R hdf h
  | _, _, _, .enum h1 h2 h3, _ => .enum h1 h2 h3
  | _, _, _, .enumGap h1 h2 h3 h4 h5 h6, _ => .enumGap h1 h2 h3 h4 h5 h6
  | _, _, _, .enumOther h1 h2 h3 h4 h5 h6, _ => .enumOther h1 h2 h3 h4 h5 h6
  | _, _, _, .struct h, hm => fun _ hid => ⟨struct_takes R hm (MembersF.takes R hdf h) hid, rfl⟩
  | _, _, _, .arm h0 h1 h2 h3 h4 h5 h6, hm => fun _ hid =>
      ⟨union_arm_takes R h0 hm h1 h2 h3 h5 h6 (TypedF.takes R hdf h4) (DeclaredF.takes R hdf h6) hid, rfl⟩
  | _, _, _, .bareArm h0 h1 h2 h3 h6, hm => fun _ hid =>
      ⟨union_bare_takes R h0 hm h1 h2 h3 h6 (DeclaredF.takes R hdf h6) hid, rfl⟩
  | _, _, _, .gap h0 h1 h2 h3, hm => fun _ hid => ⟨union_gap_takes R h0 hm h1 h2 h3 hid, rfl⟩
  | _, _, _, .next h0 h1 h2 h3 h4 h5, hm => fun _ hid =>
      ⟨union_next_takes R hdf h0 hm h1 h2 h3 h4 h5 (DeclaredF.takes R hdf h5) hid, rfl⟩
  | _, _, _, .default h0 h1 h2 h4 h5 h3 h6, hm => fun _ hid =>
      ⟨union_default_takes R h0 hm h1 h2 h3 h5 h6 (TypedF.takes R hdf h4) (DeclaredF.takes R hdf h6) hid, rfl⟩

theorem DeclaredF.takes (R : Run ds cfg n file defs dflt) (hdf : DefaultsRead ds cfg) :
    ∀ {d x b}, DeclaredF ds cfg d x b → DeclTakes ds cfg file defs d x b
  | _, _, _, .variable h => variable_takes (TypedF.takes R hdf h)
  | _, _, _, .fixedArray hs h => fixedArray_takes R hs (EachF.takes R hdf h)
  | _, _, _, .variableArray hl h => variableArray_takes R hl h (EachF.takes R hdf h)
  | _, _, _, .opaqueFixed hs hp => opaqueFixed_takes R hs hp
  | _, _, _, .opaqueVar hl hp => opaqueVar_takes hl hp
  | _, _, _, .string hl hp => string_takes hl hp
  | _, _, _, .absent => option_takes (.inl ⟨rfl, rfl⟩)
  | _, _, _, .present hw hw' h => option_takes (.inr ⟨_, _, _, rfl, hw, hw', rfl, TypedF.takes R hdf h⟩)
  | _, _, _, .void => by
    intro _ _ m rty op hc
    cases m with
    | zero => cases hc
    | succ m =>
      simp [convert_type_token, convertTypeWith] at hc

theorem EachF.takes (R : Run ds cfg n file defs dflt) (hdf : DefaultsRead ds cfg) :
    ∀ {ts xs b}, EachF ds cfg ts xs b → EachTakes ds cfg file defs ts xs b
  | _, _, _, .nil => takes_each_nil
  | _, _, _, .cons h1 h2 => takes_each_cons (TypedF.takes R hdf h1) (EachF.takes R hdf h2)

theorem MembersF.takes (R : Run ds cfg n file defs dflt) (hdf : DefaultsRead ds cfg) :
    ∀ {ms xs b}, MembersF ds cfg ms xs b → MembersTakes ds cfg file defs ms xs b
  | _, _, _, .nil => takes_members_nil
  | _, _, _, .cons h1 h2 => takes_members_cons R (DeclaredF.takes R hdf h1) (MembersF.takes R hdf h2)

end

end
end Xdr.Rpcgen
