import Verif.RpcgenProofs.Arms
import Verif.Rpcgen.Main
import Verif.Props.Enums
import Verif.Props.Opaque
import Verif.Props.Parsing
/-!
# Properties C43 to C45: generated enums on the wire

`gen_code n ds cfg` is `gen_code`; `file.defs` is what its output means in Rust (`Rpcgen/Meaning.lean`),
`none` if rustc rejects it. `program defs` is then the program, and `toBytes`, `fromBytes` are
`serde_xdr::to_bytes` and `from_bytes`. `Numbered ds as ks` says which numbers the schema gives the members
of an enum (`Spec/Resolve.lean`), `Rfc.encode` is the encoding of RFC 4506.
-/

namespace Xdr.Rpcgen

/-- What C43 to C45 say of a generated enum `ty`: each member has, under its Rust name, a value that is
written as the XDR enum value with the member's number, and read back from it. -/
def WireNumbers (defs : List (String × Def)) (ty : RIdent) (as : List Assign) (ks : List Int) : Prop :=
  ∀ a k, (a, k) ∈ as.zip ks → ∃ id i bs, upper_camel_case_ident a.identifier = .ok id ∧
    VariantAt (Xdr.program defs) ty.str i id.str ∧
    Rfc.encode (.enum k) = some bs ∧
    toBytes (Xdr.program defs) (.named ty.str) (.variant i []) = .ok bs ∧
    ∀ n, 0 < n → fromBytes (Xdr.program defs) n (.named ty.str) bs = .ok (.variant i [])
where
  /-- Variant `i` of the enum has the name. -/
  VariantAt (env : Env) (ty : String) (i : Nat) (vn : String) : Prop :=
    (∃ vars sh, env ty = some (.enum vars) ∧ vars[i]? = some (vn, sh)) ∨
    (∃ vars fs impl, env ty = some (.indexer vars impl) ∧ vars[i]? = some (vn, fs))

/-- C43, for non-negative numbers: without flags, each member has its declared number on the wire, both
ways. -/
theorem C43_wire_partial {ds : List Definition} (hwf : WellFormed ds) {cfg : Config}
    (hc : cfg.enum_complement_index = true) {n : Nat} {file : RustFile}
    (hg : gen_code n ds cfg = .ok file) {defs : List (String × Def)} (hd : file.defs = some defs)
    {name : Str} {as : List Assign} {ks : List Int} (hm : .type (.enum name as) ∈ ds)
    (hnum : Numbered ds as ks) (hpos : ∀ k ∈ ks, 0 ≤ k) :
    ∃ ty, upper_camel_case_ident name = .ok ty ∧ WireNumbers defs ty as ks := by
  obtain ⟨e, he, hmem⟩ := gen_code_enum hg hm
  obtain ⟨ms, h1, h2, h3, h4, h5, h6, -, h7, h8, h9, -, -, -⟩ :=
    enum_members hwf (members_ok hwf hm) hnum.stands hnum.distinct hnum.range he
  refine ⟨e.name, h8, fun a k hak => ?_⟩
  obtain ⟨d, hd1, hd2⟩ := defs_lookup hd hmem
  have hix : cfg.enum_impl_indexer = false := by
    unfold Config.enum_complement_index at hc
    simp_all
  obtain ⟨-, hdef | ⟨hx, -⟩⟩ := enum_meaning_ok hd1
  · obtain ⟨-, rfl⟩ := hdef
    obtain ⟨id, hid, hmm⟩ := h1 _ hak
    have hk := (List.of_mem_zip hak).2
    obtain ⟨-, hpos'⟩ := (h6 hc hpos).pos (h5 _ hmm)
    have h0 := hpos k hk
    simp only [Int.sub_zero] at hpos'
    have hi : (e.variants.map fun v => (v.1.str, Shape.unit))[k.toNat]? = some (id.str, .unit) := by
      simp [hpos']
    obtain ⟨bs, hbs⟩ := encode_enum (hnum.range k hk)
    have hr := hnum.range k hk
    have hrep := rep_enum hd2 hi (by omega)
    have hcast : ((k.toNat : Nat) : Int) = k := by omega
    rw [hcast] at hrep
    exact ⟨id, k.toNat, bs, hid, .inl ⟨_, _, hd2, hi⟩, hbs, hrep.write hbs,
      fun n hn => hrep.read hbs (by simpa [Val.depth, depthList] using hn)⟩
  · rw [h9, hix] at hx
    cases hx

/-- C43. Numbers no member has: those below the largest member are read as a variant that is no member,
those above are errors. -/
theorem C43_undeclared {ds : List Definition} (hwf : WellFormed ds) {cfg : Config}
    (hc : cfg.enum_complement_index = true) {n : Nat} {file : RustFile}
    (hg : gen_code n ds cfg = .ok file) {defs : List (String × Def)} (hd : file.defs = some defs)
    {name : Str} {as : List Assign} {ks : List Int} (hm : .type (.enum name as) ∈ ds)
    (hnum : Numbered ds as ks) (hpos : ∀ k ∈ ks, 0 ≤ k) {ty : RIdent}
    (hty : upper_camel_case_ident name = .ok ty) (j : Nat) (hj : (j : Int) ∉ ks) (m : Nat) (rest : Bytes) :
    ((∃ k ∈ ks, (j : Int) < k) → ∃ vn,
      WireNumbers.VariantAt (Xdr.program defs) ty.str j vn ∧
      (∀ a ∈ as, ∀ id, upper_camel_case_ident a.identifier = .ok id → vn ≠ id.str) ∧
      deTy (Xdr.program defs) (m + 1) (.named ty.str) (Rfc.beBytes 4 j ++ rest) =
        .ok (.variant j [], rest)) ∧
    ((∀ k ∈ ks, k < (j : Int)) → j < 2 ^ 32 →
      ∃ err, deTy (Xdr.program defs) (m + 1) (.named ty.str) (Rfc.beBytes 4 j ++ rest) = .err err) := by
  obtain ⟨e, he, hmem⟩ := gen_code_enum hg hm
  obtain ⟨ms, h1, h2, h3, h4, h5, h6, -, h7, h8, h9, -, -, -, h10⟩ :=
    enum_members hwf (members_ok hwf hm) hnum.stands hnum.distinct hnum.range he
  have hnm : e.name = ty := by
    rw [h8] at hty
    cases hty
    rfl
  obtain ⟨d, hd1, hd2⟩ := defs_lookup hd hmem
  have hd2' : Xdr.program defs ty.str = some d := by
    rw [← hnm]
    exact hd2
  have hix : cfg.enum_impl_indexer = false := by
    unfold Config.enum_complement_index at hc
    simp_all
  obtain ⟨hnd, hdef | ⟨hx, -⟩⟩ := enum_meaning_ok hd1
  swap
  · rw [h9, hix] at hx
    cases hx
  obtain ⟨-, rfl⟩ := hdef
  have hcons := h6 hc hpos
  constructor
  · rintro ⟨k, hk, hjk⟩
    -- the member `k` is at position `k`, so there is a variant at `j`
    obtain ⟨a, ha⟩ : ∃ a, (a, k) ∈ as.zip ks := by
      obtain ⟨i, hi⟩ := List.mem_iff_getElem?.1 hk
      have hlt : i < as.length := by
        rw [hnum.stands.length_eq]
        exact (List.getElem?_eq_some_iff.1 hi).1
      exact ⟨as[i], List.mem_iff_getElem?.2 ⟨i, List.getElem?_zip_eq_some.2 ⟨by simp [hlt], hi⟩⟩⟩
    obtain ⟨id, -, hmm⟩ := h1 _ ha
    obtain ⟨-, hp⟩ := hcons.pos (h5 _ hmm)
    simp only [Int.sub_zero] at hp
    have hlen := (List.getElem?_eq_some_iff.1 hp).1
    obtain ⟨v, hv⟩ : ∃ v, e.variants[j]? = some v := ⟨e.variants[j], by
      rw [List.getElem?_eq_getElem (by omega)]⟩
    have hvj := hcons j v.2 (by simp [hv])
    have hr := hnum.range k hk
    have hi : (e.variants.map fun v => (v.1.str, Shape.unit))[j]? = some (v.1.str, .unit) := by simp [hv]
    refine ⟨v.1.str, .inl ⟨_, _, hd2', hi⟩, ?_, ?_⟩
    · intro b hb idb hidb heq
      obtain ⟨ib, hib⟩ := List.mem_iff_getElem?.1 hb
      have hltb : ib < ks.length := by
        rw [← hnum.stands.length_eq]
        exact (List.getElem?_eq_some_iff.1 hib).1
      obtain ⟨id', hid', hmm'⟩ := h1 (b, ks[ib])
        (List.mem_iff_getElem?.2 ⟨ib, List.getElem?_zip_eq_some.2 ⟨hib, by simp [hltb]⟩⟩)
      have hkb : ks[ib] ∈ ks := List.getElem_mem _
      simp only at hid' hmm'
      rw [hidb] at hid'
      cases hid'
      obtain ⟨-, hp'⟩ := hcons.pos (h5 _ hmm')
      simp only [Int.sub_zero] at hp'
      have hn' : (e.variants.map fun v => (v.1.str, Shape.unit)).map (·.1) = e.variants.map (·.1.str) := by
        simp [List.map_map, Function.comp_def]
      have hnd' : ((e.variants.map fun v => (v.1.str, Shape.unit)).map (·.1)).Nodup := by
        rw [hn']
        exact hnd
      have hi' : (e.variants.map fun v => (v.1.str, Shape.unit))[ks[ib].toNat]? = some (idb.str, .unit) := by
        simp [hp']
      have hne : ks[ib].toNat ≠ j := by
        intro e'
        apply hj
        have h0 := hpos _ hkb
        rw [← e']
        rw [Int.toNat_of_nonneg h0]
        exact hkb
      rcases Nat.lt_or_gt_of_ne hne with hlt | hlt
      · exact first_of_nodup hnd' hi _ hlt _ hi' heq.symm
      · exact first_of_nodup hnd' hi' _ hlt _ hi heq
    · have hrep := rep_enum hd2' hi (by omega)
      have hb : Rfc.encode (.enum (j : Int)) = some (Rfc.beBytes 4 j) := by
        simp only [Rfc.encode, Rfc.signed]
        have e1 : (2 ^ (8 * 4 - 1) : Int) = 2147483648 := by decide
        have e2 : (2 ^ (8 * 4) : Int) = 4294967296 := by decide
        rw [if_pos (by rw [e1]; omega), e2]
        congr 2
        omega
      exact hrep.readWith hb (by simp [Val.depth, depthList]) rest
  · intro hmax h32
    obtain ⟨g1, g2, -⟩ := C16_read (Xdr.program defs) m ty.str _ hd2' j h32 rest
    by_cases h31 : 2 ^ 31 ≤ j
    · exact ⟨_, g1 h31⟩
    · obtain ⟨msg, hmsg⟩ := g2 (by omega) (by
        simp only [List.length_map]
        by_contra hlt
        -- the last variant is a member, so its number is below `j`
        obtain ⟨v, hv⟩ : ∃ v, e.variants.getLast? = some v := by
          rw [← Option.isSome_iff_exists]
          cases hvs : e.variants with
          | nil => simp [hvs] at hlt
          | cons x xs => simp [List.getLast?_cons]
        obtain ⟨a, ha, -⟩ := h2 _ (h10 v hv)
        have h11 := hmax _ (List.of_mem_zip ha).2
        have hv' := hv
        rw [List.getLast?_eq_getElem?] at hv'
        have h12 := hcons (e.variants.length - 1) v.2 (by
          simp only [List.getElem?_map, hv', Option.map_some])
        omega)
      exact ⟨_, hmsg⟩

/-! The hypotheses hold of this interface, members in any order. -/

def colours : List Definition :=
  [.constant ⟨c!"FOUR", .constant (.decimal c!"4")⟩,
   .type (.enum c!"colour" [⟨c!"RED", .identifier c!"FOUR"⟩, ⟨c!"dark_blue", .constant (.hex c!"1")⟩])]

theorem parse_colours : parse c!"const FOUR = 4; enum colour { RED = FOUR, dark_blue = 0x1 };" =
    .ok colours := by
  set_option maxRecDepth 100000 in rfl

theorem wellFormed_parse {s : Str} {ds : List Definition} (h : parse s = .ok ds) : WellFormed ds :=
  wellFormed_of_text (parseWith_text h)

theorem numbered_colours : Numbered colours [⟨c!"RED", .identifier c!"FOUR"⟩,
    ⟨c!"dark_blue", .constant (.hex c!"1")⟩] [4, 1] where
  stands := .cons ⟨_, .name rfl (.literal _), rfl⟩ (.cons ⟨_, .literal _, rfl⟩ .nil)
  distinct := by decide
  range := by decide

/-- The interface is accepted, by the generator and by rustc as far as `Meaning.lean` goes. -/
def accepted (n : Nat) (ds : List Definition) (cfg : Config) : Bool :=
  match gen_code n ds cfg with
  | .ok f => f.defs.isSome
  | _ => false

theorem accepted_ok {n : Nat} {ds : List Definition} {cfg : Config} (h : accepted n ds cfg = true) :
    ∃ file defs, gen_code n ds cfg = .ok file ∧ file.defs = some defs := by
  unfold accepted at h
  split at h
  · next f hf =>
    obtain ⟨defs, hd⟩ := Option.isSome_iff_exists.1 h
    exact ⟨f, defs, hf, hd⟩
  · cases h

example : ∃ file defs ty, gen_code 5 colours (Flags.config {}) = .ok file ∧ file.defs = some defs ∧
    upper_camel_case_ident c!"colour" = .ok ty ∧
    WireNumbers defs ty [⟨c!"RED", .identifier c!"FOUR"⟩, ⟨c!"dark_blue", .constant (.hex c!"1")⟩] [4, 1] := by
  obtain ⟨file, defs, hg, hd⟩ := accepted_ok (n := 5) (ds := colours) (cfg := Flags.config {}) (by decide +kernel)
  obtain ⟨ty, h1, h2⟩ := C43_wire_partial (ds := colours) (wellFormed_parse parse_colours)
    rfl hg hd (List.mem_cons_of_mem _ List.mem_cons_self) numbered_colours (by decide)
  exact ⟨file, defs, ty, hg, hd, h1, h2⟩

/-- C43 is false for negative numbers: `B`, declared 0, is written as 1, and 0 is read as `A`. -/
theorem C43_violated : ∃ (s : Str) (ds : List Definition) (file : RustFile) (defs : List (String × Def)),
    parse s = .ok ds ∧ gen_code 1 ds (Flags.config {}) = .ok file ∧ file.defs = some defs ∧
    .type (.enum c!"e" [⟨c!"A", .constant (.decimal c!"-1")⟩, ⟨c!"B", .constant (.decimal c!"0")⟩]) ∈ ds ∧
    Numbered ds [⟨c!"A", .constant (.decimal c!"-1")⟩, ⟨c!"B", .constant (.decimal c!"0")⟩] [-1, 0] ∧
    Xdr.program defs "E" = some (.enum [("A", .unit), ("B", .unit)]) ∧
    toBytes (Xdr.program defs) (.named "E") (.variant 1 []) = .ok [0, 0, 0, 1] ∧
    fromBytes (Xdr.program defs) 1 (.named "E") [0, 0, 0, 0] = .ok (.variant 0 []) := by
  refine ⟨c!"enum e { A = -1, B = 0 };", _, _, _, rfl, rfl, rfl, List.mem_cons_self, ?_, rfl, rfl, rfl⟩
  exact ⟨.cons ⟨_, .literal _, rfl⟩ (.cons ⟨_, .literal _, rfl⟩ .nil), by decide, by decide⟩

theorem encode_enum_negative {k : Int} (h : -2147483648 ≤ k) (hn : k < 0) :
    Rfc.encode (.enum k) = some (Rfc.beBytes 4 (k + 4294967296).toNat) := by
  simp only [Rfc.encode, Rfc.signed]
  have e1 : (2 ^ (8 * 4 - 1) : Int) = 2147483648 := by decide
  have e2 : (2 ^ (8 * 4) : Int) = 4294967296 := by decide
  rw [if_pos (by rw [e1]; omega), e2]
  congr 2
  omega

/-- C43, exactly: without flags, the members have their declared numbers on the wire, both ways, if and
only if no number is negative. -/
theorem C43_exact {ds : List Definition} (hwf : WellFormed ds) {cfg : Config}
    (hc : cfg.enum_complement_index = true) {n : Nat} {file : RustFile}
    (hg : gen_code n ds cfg = .ok file) {defs : List (String × Def)} (hd : file.defs = some defs)
    {name : Str} {as : List Assign} {ks : List Int} (hm : .type (.enum name as) ∈ ds)
    (hnum : Numbered ds as ks) {ty : RIdent} (hty : upper_camel_case_ident name = .ok ty) :
    WireNumbers defs ty as ks ↔ ∀ k ∈ ks, 0 ≤ k := by
  constructor
  · intro hw k hk
    by_contra hneg
    obtain ⟨a, ha⟩ : ∃ a, (a, k) ∈ as.zip ks := by
      obtain ⟨i, hi⟩ := List.mem_iff_getElem?.1 hk
      have hlt : i < as.length := by
        rw [hnum.stands.length_eq]
        exact (List.getElem?_eq_some_iff.1 hi).1
      exact ⟨as[i], List.mem_iff_getElem?.2 ⟨i, List.getElem?_zip_eq_some.2 ⟨by simp [hlt], hi⟩⟩⟩
    obtain ⟨id, i, bs, -, -, hbs, -, hread⟩ := hw a k ha
    obtain ⟨e, he, hmem⟩ := gen_code_enum hg hm
    obtain ⟨ms, -, -, -, -, -, -, -, -, h8, h9, -, -, -⟩ :=
      enum_members hwf (members_ok hwf hm) hnum.stands hnum.distinct hnum.range he
    rw [h8] at hty
    cases hty
    obtain ⟨d, hd1, hd2⟩ := defs_lookup hd hmem
    have hix : cfg.enum_impl_indexer = false := by
      unfold Config.enum_complement_index at hc
      simp_all
    obtain ⟨-, ⟨-, rfl⟩ | ⟨hx, -⟩⟩ := enum_meaning_ok hd1
    swap
    · rw [h9, hix] at hx
      cases hx
    have hr := hnum.range k hk
    rw [encode_enum_negative hr.1 (by omega)] at hbs
    cases hbs
    have h1 := hread 1 (by omega)
    have h2 := (C16_read (Xdr.program defs) 0 e.name.str _ hd2 (k + 4294967296).toNat (by omega) []).1
      (by omega)
    rw [List.append_nil] at h2
    simp only [fromBytes, from_bytes, h2] at h1
    cases h1
  · intro hpos
    obtain ⟨ty', h1, h2⟩ := C43_wire_partial hwf hc hg hd hm hnum hpos
    rw [hty] at h1
    cases h1
    exact h2

/-- C43. What happens if a number is negative: every member is written as its distance from the least
one, and read back from that. -/
theorem C43_shifted {ds : List Definition} (hwf : WellFormed ds) {cfg : Config}
    (hc : cfg.enum_complement_index = true) {n : Nat} {file : RustFile}
    (hg : gen_code n ds cfg = .ok file) {defs : List (String × Def)} (hd : file.defs = some defs)
    {name : Str} {as : List Assign} {ks : List Int} (hm : .type (.enum name as) ∈ ds)
    (hnum : Numbered ds as ks) {k : Int} (hk : k ∈ ks) (hneg : k < 0) :
    ∃ ty lo, upper_camel_case_ident name = .ok ty ∧ lo ∈ ks ∧ lo < 0 ∧ (∀ k ∈ ks, lo ≤ k) ∧
      ∀ a k, (a, k) ∈ as.zip ks → ∃ id, ∃ i : Nat, upper_camel_case_ident a.identifier = .ok id ∧
        (i : Int) = k - lo ∧ WireNumbers.VariantAt (Xdr.program defs) ty.str i id.str ∧
        ∀ bs, Rfc.encode (.enum (i : Int)) = some bs →
          toBytes (Xdr.program defs) (.named ty.str) (.variant i []) = .ok bs ∧
          ∀ n, 0 < n → fromBytes (Xdr.program defs) n (.named ty.str) bs = .ok (.variant i []) := by
  obtain ⟨e, he, hmem⟩ := gen_code_enum hg hm
  obtain ⟨ms, h1, -, -, -, h5, -, -, -, h8, h9, -, -, -⟩ :=
    enum_members hwf (members_ok hwf hm) hnum.stands hnum.distinct hnum.range he
  obtain ⟨lo, hlo, hlo0, hle, hcons⟩ :=
    enum_consecutive_neg hwf (members_ok hwf hm) hnum.stands hnum.distinct hnum.range he hc hk hneg
  refine ⟨e.name, lo, h8, hlo, hlo0, hle, fun a k hak => ?_⟩
  obtain ⟨d, hd1, hd2⟩ := defs_lookup hd hmem
  have hix : cfg.enum_impl_indexer = false := by
    unfold Config.enum_complement_index at hc
    simp_all
  obtain ⟨-, ⟨-, rfl⟩ | ⟨hx, -⟩⟩ := enum_meaning_ok hd1
  swap
  · rw [h9, hix] at hx
    cases hx
  obtain ⟨id, hid, hmm⟩ := h1 _ hak
  obtain ⟨hge, hp⟩ := hcons.pos (h5 _ hmm)
  simp only at hge hp
  have hi : (e.variants.map fun v => (v.1.str, Shape.unit))[(k - lo).toNat]? = some (id.str, .unit) := by
    simp [hp]
  have hr := hnum.range k (List.of_mem_zip hak).2
  have hr' := hnum.range lo hlo
  refine ⟨id, (k - lo).toNat, hid, by omega, .inl ⟨_, _, hd2, hi⟩, fun bs hbs => ?_⟩
  have hrep := rep_enum hd2 hi (by omega)
  exact ⟨hrep.write hbs, fun n hn => hrep.read hbs (by simpa [Val.depth, depthList] using hn)⟩

/-- An interface with a negative number. -/
def negatives : List Definition :=
  [.type (.enum c!"e" [⟨c!"A", .constant (.decimal c!"-1")⟩, ⟨c!"B", .constant (.decimal c!"0")⟩])]

theorem parse_negatives : parse c!"enum e { A = -1, B = 0 };" = .ok negatives := rfl

theorem numbered_negatives : Numbered negatives [⟨c!"A", .constant (.decimal c!"-1")⟩,
    ⟨c!"B", .constant (.decimal c!"0")⟩] [-1, 0] where
  stands := .cons ⟨_, .literal _, rfl⟩ (.cons ⟨_, .literal _, rfl⟩ .nil)
  distinct := by decide
  range := by decide

example : ∃ file defs, gen_code 1 negatives (Flags.config {}) = .ok file ∧ file.defs = some defs ∧
    ¬ WireNumbers defs ⟨false, c!"E"⟩
      [⟨c!"A", .constant (.decimal c!"-1")⟩, ⟨c!"B", .constant (.decimal c!"0")⟩] [-1, 0] := by
  obtain ⟨file, defs, hg, hd⟩ := accepted_ok (n := 1) (ds := negatives) (cfg := Flags.config {}) (by decide +kernel)
  refine ⟨file, defs, hg, hd, ?_⟩
  intro hw
  exact absurd ((C43_exact (wellFormed_parse parse_negatives) (cfg := Flags.config {}) rfl hg hd
    List.mem_cons_self numbered_negatives (ty := ⟨false, c!"E"⟩) rfl).1 hw) (by decide)

/-- A gap after a negative number makes the generator panic: it asks for an identifier `_Reserved-4`. -/
theorem C43_negative_gap_panics : ∃ (s : Str) (ds : List Definition), parse s = .ok ds ∧
    ∀ n, gen_code n ds (Flags.config {}) = .panic (.badIdent c!"_Reserved-4") :=
  ⟨c!"enum e { A = -5, B = -3 };", _, rfl, fun _ => rfl⟩

/-- The largest number of an XDR enum makes it panic too (`end + 1` overflows; in a release build it
wraps around). -/
theorem C43_max_panics : ∃ (s : Str) (ds : List Definition), parse s = .ok ds ∧
    ∀ n, gen_code n ds { remove_typedef := true, enum_impl_std_trait := true } = .panic .overflow :=
  ⟨c!"enum e { A = 0x7fffffff };", _, rfl, fun _ => rfl⟩

/-- C44. With `--use-std-trait`: `AsRef` of a member is its number, `TryFrom` of the number is the member,
and `TryFrom` of any other number is an error. Numbers may be negative. -/
theorem C44_inverse {ds : List Definition} (hwf : WellFormed ds) {cfg : Config}
    (hc : cfg.enum_impl_std_trait = true) {n : Nat} {file : RustFile}
    (hg : gen_code n ds cfg = .ok file) {defs : List (String × Def)} (hd : file.defs = some defs)
    {name : Str} {as : List Assign} {ks : List Int} (hm : .type (.enum name as) ∈ ds)
    (hnum : Numbered ds as ks) :
    ∃ e asRef tryFrom, .enum e ∈ file.types ∧ upper_camel_case_ident name = .ok e.name ∧
      e.asRef = some asRef ∧ e.tryFrom = some tryFrom ∧
      let impl := signed32Of e.variants asRef tryFrom
      (∀ a k, (a, k) ∈ as.zip ks → ∃ id i, upper_camel_case_ident a.identifier = .ok id ∧
        (e.variants[i]?).map (·.1) = some id ∧
        (impl.as_ref (.variant i [])).toInt = k ∧ impl.try_from (Int32.ofInt k) = .ok (.variant i [])) ∧
      (∀ j : Int32, j.toInt ∉ ks → impl.try_from j = .err .convert) ∧
      (∀ i, i < e.variants.length → ∃ a, (a, (impl.as_ref (.variant i [])).toInt) ∈ as.zip ks) := by
  obtain ⟨e, he, hmem⟩ := gen_code_enum hg hm
  obtain ⟨ms, h1, h2, h3, -, -, -, -, h7, h8, -, h10, h11, -⟩ :=
    enum_members hwf (members_ok hwf hm) hnum.stands hnum.distinct hnum.range he
  have hv : e.variants = ms := h7 (by simp [Config.enum_complement_index, hc])
  rw [hc] at h10 h11
  simp only [if_true] at h10 h11
  obtain ⟨d, hd1, -⟩ := defs_lookup hd hmem
  have hn : (ms.map (·.1)).Nodup := by
    rw [← hv]
    exact nodup_of_str (enum_meaning_ok hd1).1
  have hk := pairwise_lt_nodup h3
  refine ⟨e, ms, _, hmem, h8, h10, h11, ?_, ?_, ?_⟩
  · intro a k hak
    obtain ⟨id, hid, hmm⟩ := h1 _ hak
    obtain ⟨i, hi⟩ := List.mem_iff_getElem?.1 hmm
    have hr := hnum.range k (List.of_mem_zip hak).2
    obtain ⟨g1, g2⟩ := signed32Of_member hn hk hi hr
    rw [hv]
    refine ⟨id, i, hid, by simp [hi], ?_, g2⟩
    rw [g1, toInt_ofInt hr]
  · intro j hj
    rw [hv]
    refine signed32Of_unknown fun hx => ?_
    obtain ⟨m, hm, hmj⟩ := List.mem_map.1 hx
    obtain ⟨a, ha, -⟩ := h2 m hm
    exact hj (hmj ▸ (List.of_mem_zip ha).2)
  · intro i hi
    rw [hv] at hi
    have hi' : ms[i]? = some ms[i] := List.getElem?_eq_getElem hi
    obtain ⟨a, ha, -⟩ := h2 _ (List.mem_of_getElem? hi')
    have hr := hnum.range _ (List.of_mem_zip ha).2
    refine ⟨a, ?_⟩
    rw [hv, (signed32Of_member hn hk hi' hr).1, toInt_ofInt hr]
    exact ha

/-- C44, on the wire: a field of the enum's type with the attribute the generator writes. -/
theorem C44_wire {ds : List Definition} (hwf : WellFormed ds) {cfg : Config}
    (hc : cfg.enum_impl_std_trait = true) (hc' : cfg.enum_impl_indexer = false) {n : Nat} {file : RustFile}
    (hg : gen_code n ds cfg = .ok file) {defs : List (String × Def)} (hd : file.defs = some defs)
    {name : Str} {as : List Assign} {ks : List Int} (hm : .type (.enum name as) ∈ ds)
    (hnum : Numbered ds as ks) {ty : RIdent} (hty : upper_camel_case_ident name = .ok ty) :
    ∃ t, fieldMeaning file.constants file.enums .signed32 (.path ty) = some t ∧
      (∀ a k, (a, k) ∈ as.zip ks → ∃ id i bs, upper_camel_case_ident a.identifier = .ok id ∧
        WireNumbers.VariantAt (Xdr.program defs) ty.str i id.str ∧ Rfc.encode (.enum k) = some bs ∧
        toBytes (Xdr.program defs) t (.variant i []) = .ok bs ∧
        (∀ n, 0 < n → fromBytes (Xdr.program defs) n t bs = .ok (.variant i []))) ∧
      (∀ (j : Int32) (bs rest : Bytes) n, j.toInt ∉ ks → Rfc.encode (.enum j.toInt) = some bs → 0 < n →
        ∃ msg, deTy (Xdr.program defs) n t (bs ++ rest) = .err (.custom msg)) := by
  obtain ⟨e, asRef, tryFrom, hmem, h1, h2, h3, h4, h5, -⟩ := C44_inverse hwf hc hg hd hm hnum
  rw [h1] at hty
  cases hty
  obtain ⟨d, hd1, hd2⟩ := defs_lookup hd hmem
  have hdi : e.deriveIndexer = false := by
    obtain ⟨name', d', l, -, hdd, hmm⟩ := types_token_mem (gen_code_ok.1 hg).2.1 hmem
    have hi := typeToken_item hdd hmm
    cases d' with
    | enum _ as' =>
      obtain ⟨_, _, _, _, _, _, g, _⟩ := convert_enum_ok hi
      exact g.trans hc'
    | declaration _ => exact hi.elim
    | struct _ _ => exact hi.elim
    | union _ _ => exact hi.elim
  obtain ⟨-, ⟨-, rfl⟩ | ⟨hx, -⟩⟩ := enum_meaning_ok hd1
  swap
  · rw [hdi] at hx
    cases hx
  refine ⟨.signed32 e.name.str (signed32Of e.variants asRef tryFrom), ?_, ?_, ?_⟩
  · simp only [fieldMeaning, enums_find (defs_ok hd).1 hmem, h2, h3]
  · intro a k hak
    obtain ⟨id, i, hid, hi, g1, g2⟩ := h4 a k hak
    have hr := hnum.range k (List.of_mem_zip hak).2
    obtain ⟨bs, hbs⟩ := encode_enum hr
    have hi' : (e.variants.map fun v => (v.1.str, Shape.unit))[i]? = some (id.str, .unit) := by
      obtain ⟨v, hv, rfl⟩ := Option.map_eq_some_iff.1 hi
      simp [hv]
    have hrep := rep_signed32 hd2 hi' (impl := signed32Of e.variants asRef tryFrom) (by
      have : (signed32Of e.variants asRef tryFrom).as_ref (.variant i []) = Int32.ofInt k := by
        rw [← g1, Int32.ofInt_toInt]
      rw [this, g2])
    rw [g1] at hrep
    exact ⟨id, i, bs, hid, .inl ⟨_, _, hd2, hi'⟩, hbs, hrep.write hbs,
      fun n hn => hrep.read hbs (by simpa [Val.depth, depthList] using hn)⟩
  · intro j bs rest n hj hbs hn
    obtain ⟨n, rfl⟩ := Nat.exists_eq_add_one.2 hn
    have hread := C22_read (Xdr.program defs) n e.name.str (signed32Of e.variants asRef tryFrom) j bs rest hbs
    simp only [h5 j hj] at hread
    exact ⟨_, hread⟩

def stdTraits : Config := Flags.config { use_std_trait := true }

/-- The members of this enum are negative, zero and large; all hypotheses hold. -/
def levels : List Definition :=
  [.type (.enum c!"level" [⟨c!"high", .constant (.decimal c!"2000000000")⟩,
    ⟨c!"low", .constant (.decimal c!"-7")⟩, ⟨c!"zero", .constant (.decimal c!"0")⟩])]

theorem parse_levels : parse c!"enum level { high = 2000000000, low = -7, zero = 0 };" = .ok levels := by
  set_option maxRecDepth 100000 in rfl

theorem numbered_levels : Numbered levels [⟨c!"high", .constant (.decimal c!"2000000000")⟩,
    ⟨c!"low", .constant (.decimal c!"-7")⟩, ⟨c!"zero", .constant (.decimal c!"0")⟩] [2000000000, -7, 0] where
  stands := .cons ⟨_, .literal _, rfl⟩ (.cons ⟨_, .literal _, rfl⟩ (.cons ⟨_, .literal _, rfl⟩ .nil))
  distinct := by decide
  range := by decide

example : ∃ file defs t, gen_code 5 levels stdTraits = .ok file ∧ file.defs = some defs ∧
    fieldMeaning file.constants file.enums .signed32 (.path ⟨false, c!"Level"⟩) = some t ∧
    ∃ i, WireNumbers.VariantAt (Xdr.program defs) "Level" i "Low" ∧
      toBytes (Xdr.program defs) t (.variant i []) = .ok [255, 255, 255, 249] := by
  obtain ⟨file, defs, hg, hd⟩ := accepted_ok (n := 5) (ds := levels) (cfg := stdTraits) (by decide +kernel)
  obtain ⟨t, h1, h2, -⟩ := C44_wire (ds := levels) (wellFormed_parse parse_levels) (cfg := stdTraits)
    rfl rfl hg hd List.mem_cons_self numbered_levels (ty := ⟨false, c!"Level"⟩) rfl
  obtain ⟨id, i, bs, hid, h3, h4, h5, -⟩ := h2 ⟨c!"low", .constant (.decimal c!"-7")⟩ (-7) (by decide)
  cases hid
  have : bs = [255, 255, 255, 249] := by
    have : Rfc.encode (.enum (-7)) = some [255, 255, 255, 249] := by decide
    rw [this] at h4
    cases h4
    rfl
  subst this
  exact ⟨file, defs, t, hg, hd, h1, i, h3, h5⟩

/-- C45, on members: with `--use-indexer`, each member has its number on the wire, both ways. -/
theorem C45_members_partial {ds : List Definition} (hwf : WellFormed ds) {cfg : Config}
    (hc : cfg.enum_impl_indexer = true) {n : Nat} {file : RustFile}
    (hg : gen_code n ds cfg = .ok file) {defs : List (String × Def)} (hd : file.defs = some defs)
    {name : Str} {as : List Assign} {ks : List Int} (hm : .type (.enum name as) ∈ ds)
    (hnum : Numbered ds as ks) :
    ∃ ty, upper_camel_case_ident name = .ok ty ∧ WireNumbers defs ty as ks := by
  obtain ⟨ms, e, hmem, h8, h1, h2, h3, -, hd2, hn⟩ := indexer_members hwf hc hg hd hm hnum
  refine ⟨e.name, h8, fun a k hak => ?_⟩
  obtain ⟨id, hid, hmm⟩ := h1 _ hak
  have hr := hnum.range k (List.of_mem_zip hak).2
  obtain ⟨i, hi⟩ := List.mem_iff_getElem?.1 hmm
  obtain ⟨g1, g2⟩ := enumIndexer_member (otherwise := e.default) (nodup_of_str hn) (pairwise_lt_nodup h3) hi hr
  obtain ⟨bs, hbs⟩ := encode_enum hr
  have hi' : (ms.map fun v => (v.1.str, (none : Option (List Ty))))[i]? = some (id.str, none) := by simp [hi]
  have hrep := rep_indexer_unit hd2 hi' g1 g2 (first_of_nodup (by
    simpa [List.map_map, Function.comp_def] using hn) hi')
  rw [toInt_ofInt hr] at hrep
  exact ⟨id, i, bs, hid, .inr ⟨_, _, _, hd2, hi'⟩, hbs, hrep.write hbs,
    fun n hn => hrep.read hbs (by simpa [Val.depth, depthList] using hn)⟩

/-- C45, on other numbers, is false: whatever the enum, every number that is no member's is read as the
member with the smallest number. -/
theorem C45_unknown_violated {ds : List Definition} (hwf : WellFormed ds) {cfg : Config}
    (hc : cfg.enum_impl_indexer = true) {n : Nat} {file : RustFile}
    (hg : gen_code n ds cfg = .ok file) {defs : List (String × Def)} (hd : file.defs = some defs)
    {name : Str} {as : List Assign} {ks : List Int} (hm : .type (.enum name as) ∈ ds)
    (hnum : Numbered ds as ks) {ty : RIdent} (hty : upper_camel_case_ident name = .ok ty) :
    ∃ a k id i, (a, k) ∈ as.zip ks ∧ (∀ k' ∈ ks, k ≤ k') ∧ upper_camel_case_ident a.identifier = .ok id ∧
      WireNumbers.VariantAt (Xdr.program defs) ty.str i id.str ∧
      ∀ (j : Int32) (bs rest : Bytes) m, j.toInt ∉ ks → Rfc.encode (.enum j.toInt) = some bs → 0 < m →
        deTy (Xdr.program defs) m (.named ty.str) (bs ++ rest) = .ok (.variant i [], rest) := by
  obtain ⟨ms, e, hmem, h8, h1, h2, h3, h4, hd2, hn⟩ := indexer_members hwf hc hg hd hm hnum
  rw [h8] at hty
  cases hty
  obtain ⟨mn, hmn, hdef⟩ := h4
  obtain ⟨a, ha, hid⟩ := h2 mn (List.mem_of_mem_head? hmn)
  have hi : ms[0]? = some mn := by rwa [List.head?_eq_getElem?] at hmn
  have hi' : (ms.map fun v => (v.1.str, (none : Option (List Ty))))[0]? = some (mn.1.str, none) := by simp [hi]
  refine ⟨a, mn.2, mn.1, 0, ha, ?_, hid, .inr ⟨_, _, _, hd2, hi'⟩, ?_⟩
  · intro k' hk'
    obtain ⟨i, hik⟩ := List.mem_iff_getElem?.1 hk'
    have hlt : i < as.length := by
      rw [hnum.stands.length_eq]
      exact (List.getElem?_eq_some_iff.1 hik).1
    obtain ⟨id', -, hm'⟩ := h1 (as[i], k')
      (List.mem_iff_getElem?.2 ⟨i, List.getElem?_zip_eq_some.2 ⟨by simp [hlt], hik⟩⟩)
    cases ms with
    | nil => cases hm'
    | cons x xs =>
      cases hi
      rcases List.mem_cons.1 hm' with h | h
      · rw [← h]
        exact Int.le_refl _
      · exact Int.le_of_lt ((List.pairwise_cons.1 h3).1 _ h)
  · intro j bs rest m hj hbs hm
    obtain ⟨m, rfl⟩ := Nat.exists_eq_add_one.2 hm
    have hname : (enumIndexerImpl ms
        { byIndex := ms.map fun m => (m.2, m.1), otherwise := e.default, index := ms }).name_by_index j =
        .ok mn.1.str := by
      have : j.toInt ∉ (ms.map fun m => (m.2, m.1)).map (·.1) := by
        intro hx
        simp only [List.map_map, List.mem_map, Function.comp_def] at hx
        obtain ⟨x, hx, hxj⟩ := hx
        obtain ⟨a, ha, -⟩ := h2 x hx
        exact hj (hxj ▸ (List.of_mem_zip ha).2)
      simp only [enumIndexerImpl, arm_of_not_mem this, hdef]
    rw [C23_read _ m _ _ _ hd2 j bs rest hbs _ hname 0 none hi' (by simp) (by decide)]
    rfl

def indexers : Config := Flags.config { use_indexer := true }

example : ∃ file defs, gen_code 5 levels indexers = .ok file ∧ file.defs = some defs ∧
    WireNumbers defs ⟨false, c!"Level"⟩ [⟨c!"high", .constant (.decimal c!"2000000000")⟩,
      ⟨c!"low", .constant (.decimal c!"-7")⟩, ⟨c!"zero", .constant (.decimal c!"0")⟩] [2000000000, -7, 0] ∧
    ∃ i, WireNumbers.VariantAt (Xdr.program defs) "Level" i "Low" ∧
      deTy (Xdr.program defs) 1 (.named "Level") ([0, 0, 0, 1] ++ []) = .ok (.variant i [], []) := by
  obtain ⟨file, defs, hg, hd⟩ := accepted_ok (n := 5) (ds := levels) (cfg := indexers) (by decide +kernel)
  obtain ⟨ty, h1, h2⟩ := C45_members_partial (ds := levels) (wellFormed_parse parse_levels) (cfg := indexers)
    rfl hg hd List.mem_cons_self numbered_levels
  cases h1
  obtain ⟨a, k, id, i, hak, hmin, hid, hat, hall⟩ := C45_unknown_violated (ds := levels)
    (wellFormed_parse parse_levels) (cfg := indexers) rfl hg hd List.mem_cons_self numbered_levels
    (ty := ⟨false, c!"Level"⟩) rfl
  have := hall 1 [0, 0, 0, 1] [] 1 (by decide) (by decide) (by decide)
  refine ⟨file, defs, hg, hd, h2, i, ?_, this⟩
  have hk := hmin (-7) (by decide)
  simp only [List.zip_cons_cons, List.mem_cons, Prod.mk.injEq, List.zip_nil_right, List.not_mem_nil, or_false] at hak
  rcases hak with ⟨rfl, rfl⟩ | ⟨rfl, rfl⟩ | ⟨rfl, rfl⟩
  · exact absurd hk (by decide)
  · cases hid
    exact hat
  · exact absurd hk (by decide)

/-- `Level::try_from(3)` is an error, in the generated code. -/
example : ∃ file defs t msg, gen_code 5 levels stdTraits = .ok file ∧ file.defs = some defs ∧
    fieldMeaning file.constants file.enums .signed32 (.path ⟨false, c!"Level"⟩) = some t ∧
    deTy (Xdr.program defs) 1 t ([0, 0, 0, 3] ++ []) = .err (.custom msg) := by
  obtain ⟨file, defs, hg, hd⟩ := accepted_ok (n := 5) (ds := levels) (cfg := stdTraits) (by decide +kernel)
  obtain ⟨t, h1, -, h2⟩ := C44_wire (ds := levels) (wellFormed_parse parse_levels) (cfg := stdTraits)
    rfl rfl hg hd List.mem_cons_self numbered_levels (ty := ⟨false, c!"Level"⟩) rfl
  obtain ⟨msg, h3⟩ := h2 3 [0, 0, 0, 3] [] 1 (by decide) (by decide) (by decide)
  exact ⟨file, defs, t, msg, hg, hd, h1, h3⟩

/-- 2 is no member of `colours`, but read; 5 is an error. -/
example : ∃ file defs err, gen_code 5 colours (Flags.config {}) = .ok file ∧ file.defs = some defs ∧
    deTy (Xdr.program defs) 1 (.named "Colour") (Rfc.beBytes 4 2 ++ []) = .ok (.variant 2 [], []) ∧
    deTy (Xdr.program defs) 1 (.named "Colour") (Rfc.beBytes 4 5 ++ []) = .err err := by
  obtain ⟨file, defs, hg, hd⟩ := accepted_ok (n := 5) (ds := colours) (cfg := Flags.config {}) (by decide +kernel)
  have hm := wellFormed_parse parse_colours
  obtain ⟨vn, -, -, h2⟩ := (C43_undeclared (ds := colours) hm rfl hg hd
    (List.mem_cons_of_mem _ List.mem_cons_self) numbered_colours (by decide) (ty := ⟨false, c!"Colour"⟩) rfl
    2 (by decide) 0 []).1 ⟨4, by decide⟩
  obtain ⟨err, h5⟩ := (C43_undeclared (ds := colours) hm rfl hg hd
    (List.mem_cons_of_mem _ List.mem_cons_self) numbered_colours (by decide) (ty := ⟨false, c!"Colour"⟩) rfl
    5 (by decide) 0 []).2 (by decide) (by decide)
  exact ⟨file, defs, err, hg, hd, h2, h5⟩

end Xdr.Rpcgen
