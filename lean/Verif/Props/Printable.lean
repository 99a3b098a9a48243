import Verif.RpcgenProofs.Printed
import Verif.Props.Accepts
/-!
# Property C72: which interfaces the tool prints source for, exactly

`Printable` (`Spec/Printable.lean`) is the condition.
-/

namespace Xdr.Rpcgen

theorem unionLoop_top {cxt : Context} {n : Nat} {ts : TypeSpecifier} {l : List (Int × Declaration × Value)} {s : Int}
    {steps : List CaseStep} (h : unionLoop cxt n ts l s = .ok steps) :
    ∀ x ∈ l, x.1 ≠ 4294967295 ∧ ∃ c, convert_case_token cxt n x.2.2 x.2.1 ts = .ok c := by
  induction l generalizing s steps with
  | nil => simp
  | cons x l ih =>
    obtain ⟨k, d, v⟩ := x
    simp only [unionLoop, GR.bind_eq_ok] at h
    obtain ⟨_, -, c, hc, _, -, h⟩ := h
    split at h
    · cases h
    · next hM =>
      simp only [GR.bind_eq_ok] at h
      obtain ⟨st, hst, -⟩ := h
      have hmax : IntTy.u32.max = 4294967295 := by decide
      refine List.forall_mem_cons.2 ⟨⟨by simp only; omega, c, hc⟩, ih hst⟩

/-- A file with source is printable. -/
theorem printable_of_gen {s : Str} {ds : List Definition} (hp : parse s = .ok ds) {cfg : Config}
    (hrt : cfg.remove_typedef = true) {n : Nat} {file : RustFile} (hg : gen_code n ds cfg = .ok file) :
    Printable ds cfg := by
  have hwf := wellFormed_parse hp
  have hT := C72_only hp hrt hg
  have enumK : ∀ e as, .type (.enum e as) ∈ ds →
      (∀ a ∈ as, LetterFirst a.identifier) ∧
      (∀ a ∈ as, ¬ Outcome ds (-2147483648) 2147483647 a.value (some 2147483647)) ∧
      (cfg.enum_complement_index = true → ∀ a ∈ as, ∀ b ∈ as, ∀ j k i : Int,
        Outcome ds (-2147483648) 2147483647 a.value (some j) → Outcome ds (-2147483648) 2147483647 b.value (some k) →
        j < i → i < k → i < 0 → ∃ x ∈ as, Outcome ds (-2147483648) 2147483647 x.value (some i)) := by
    intro e as hm
    obtain ⟨i, hconv, -⟩ := gen_code_enum hg hm
    obtain ⟨ix, steps, hix, -, hs, -⟩ := convert_enum_ok hconv
    have hf : List.Forall₂ (Indexed ds) as ix := by
      refine List.forall₂_iff_get.2 ⟨(GR.mapM_ok.1 hix).length_eq, fun j h1 h2 => ?_⟩
      have hr := (List.forall₂_iff_get.1 (GR.mapM_ok.1 hix)).2 j h1 h2
      simp only [GR.bind_eq_ok, GR.ok.injEq] at hr
      obtain ⟨k, hk, hr⟩ := hr
      rw [← hr]
      exact ⟨rfl, outcome_of_resolve (cfg := cfg) (t := .i32) hwf n
        (member_valueOk hwf hm (List.get_mem as ⟨j, h1⟩)) (by rw [hk]; rfl)⟩
    exact (enumLoop_indexed hwf hm hf (c := cfg.enum_complement_index)).1 ⟨steps, hs⟩
  have unionK : ∀ u b ts nm, .type (.union u b) ∈ ds → b.cond = .variable ts nm → ts ≠ .bool →
      ∀ l ∈ b.labels, ¬ Outcome ds 0 4294967295 l.1 (some 4294967295) ∧
        ∃ c, convert_case_token (setup_context ds cfg) n l.1 l.2 ts = .ok c := by
    intro u b ts nm hm hb hts l hl
    obtain ⟨i, hconv, -⟩ := gen_code_union hg hm
    obtain ⟨_, _, _, -, hcases, -⟩ := convert_union_ok hconv
    have key : ∀ values steps, unionIndexed (setup_context ds cfg) n b.specs = .ok values →
        unionLoop (setup_context ds cfg) n ts (sortByKey values) 0 = .ok steps →
        ¬ Outcome ds 0 4294967295 l.1 (some 4294967295) ∧
          ∃ c, convert_case_token (setup_context ds cfg) n l.1 l.2 ts = .ok c := by
      intro values steps hv hst
      obtain ⟨p, hpm, hr⟩ := forall₂_mem_left (GR.mapM_ok.1 hv) (mem_labels.2 hl)
      simp only [GR.bind_eq_ok, GR.ok.injEq] at hr
      obtain ⟨k, hk, rfl⟩ := hr
      obtain ⟨h1, h2⟩ := unionLoop_top hst _ (mem_sortByKey.2 hpm)
      refine ⟨fun ho => h1 ?_, h2⟩
      have ho' := outcome_of_resolve (cfg := cfg) (t := .u32) hwf n (label_valueOk hwf hm hl) (by rw [hk]; rfl)
      have := Outcome.unique ho' ho
      simpa using this
    unfold unionCases at hcases
    rw [hb] at hcases
    cases ts with
    | int sg =>
      simp only [GR.bind_eq_ok] at hcases
      obtain ⟨values, h1, steps, h2, -⟩ := hcases
      exact key values steps h1 h2
    | identifier i =>
      simp only [GR.bind_eq_ok] at hcases
      obtain ⟨values, h1, steps, h2, -⟩ := hcases
      exact key values steps h1 h2
    | bool => exact absurd rfl hts
    | _ => cases hcases
  refine { hT with
    enumNames := ?_, structNames := ?_, unionNames := ?_, memberNames := ?_, labelNames := ?_,
    fieldNames := ?_, enumTop := ?_, enumGaps := ?_, labelTop := ?_, boolCases := ?_, condNames := ?_ }
  · intro e as hm
    obtain ⟨i, hconv, -⟩ := gen_code_enum hg hm
    obtain ⟨_, _, -, hn, -⟩ := convert_enum_ok hconv
    exact camel_letterFirst (enum_ident hwf hm) hn
  · intro s ms hm
    obtain ⟨i, hconv, -⟩ := gen_code_struct hg hm
    exact camel_letterFirst (struct_ident hwf hm) (convert_struct_ok hconv).1
  · intro u b hm
    obtain ⟨i, hconv, -⟩ := gen_code_union hg hm
    obtain ⟨_, _, _, hn, -⟩ := convert_union_ok hconv
    exact camel_letterFirst (union_ident hwf hm) hn
  · exact fun e as hm => (enumK e as hm).1
  · intro u b hm l hl i hi
    obtain ⟨_, _, _, _, _, vs, _, _, -, -, -, -, -, -, hvs, -⟩ := C66_variants_partial hp hg hm
    obtain ⟨v, -, hv⟩ := forall₂_mem_left hvs hl
    have hn := hv.name
    have hlab : l ∈ b.labels := by
      unfold UnionBody.used at hl
      split at hl
      · rcases List.mem_append.1 hl with hl | hl
        · exact List.mem_of_find?_eq_some (Option.mem_toList.1 hl)
        · exact List.mem_of_find?_eq_some (Option.mem_toList.1 hl)
      · exact hl
    have hid := label_ident hwf hm hlab hi
    rw [hi] at hn
    generalize v.name = t at hn
    cases hn with
    | name h => exact camel_letterFirst hid h
  · rintro d ⟨s, ms, hm, hd⟩ f hf
    obtain ⟨i, hconv, -⟩ := gen_code_struct hg hm
    obtain ⟨-, hfs⟩ := convert_struct_ok hconv
    obtain ⟨r, -, hr⟩ := forall₂_mem_left hfs hd
    obtain ⟨f', _, _, _, hf', -, -, hfi, -⟩ := convertField_ok hr
    rw [hf] at hf'
    cases hf'
    exact (field_ident_iff (hwf (.ident f) (mem_atoms_struct hm hd (name_atom hf)))).1 ⟨_, hfi⟩
  · exact fun e as hm => (enumK e as hm).2.1
  · exact fun h1 h2 e as hm => (enumK e as hm).2.2 (by simp [Config.enum_complement_index, h1, h2])
  · exact fun u b ts nm hm hb hts l hl => (unionK u b ts nm hm hb hts l hl).1
  · intro u b nm hm hb hd hu
    obtain ⟨i, hconv, -⟩ := gen_code_union hg hm
    obtain ⟨ct, acc, dflt, -, hcases, hdf, hdv, -⟩ := convert_union_ok hconv
    rw [hd] at hdf
    cases hdf
    rw [used_bool hb, List.append_eq_nil_iff, Option.toList_eq_nil_iff, Option.toList_eq_nil_iff] at hu
    have hnone : ∀ label : Value → Bool, (b.labels.find? fun l => label l.1) = none →
        ∀ x o, boolCase (setup_context ds cfg) n .bool b.specs label x = .ok o → o = none := by
      intro label hl x o h
      unfold boolCase at h
      split at h
      · cases h
        rfl
      · next sp hs =>
        split at h
        · cases h
        · next v hv =>
          rw [UnionBody.labels, find_label hs hv] at hl
          cases hl
    unfold unionCases at hcases
    rw [hb] at hcases
    simp only [GR.bind_eq_ok, GR.ok.injEq, Prod.mk.injEq] at hcases
    obtain ⟨f, hf, t, ht, -, rfl⟩ := hcases
    rw [hnone _ hu.1 _ _ hf, hnone _ hu.2 _ _ ht] at hdv
    cases hdv
  · intro u b i nm hm hb
    obtain ⟨l, hl⟩ := List.exists_mem_of_ne_nil _ (labels_nonempty hwf hm)
    obtain ⟨-, c, hc⟩ := unionK u b (.identifier i) nm hm hb nofun l hl
    simp only [convert_case_token, GR.bind_eq_ok] at hc
    obtain ⟨_, -, ct, hct, -⟩ := hc
    unfold condType at hct
    split at hct
    · next p hpr =>
      exact .inl ⟨p.1, p.2, hrt ▸ spec_sound (fun h => decl_sound h) hpr⟩
    · next e he =>
      simp only [GR.bind_eq_ok] at hct
      obtain ⟨id, hid, -⟩ := hct
      exact .inr ⟨cond_refused hrt he, camel_letterFirst (cond_ident hwf hm hb) hid⟩
    · cases hct
    · cases hct

/-- C72. The generator has source for a file, with typedefs removed, if and only if the file is
printable; it is then the source with every bound that is large enough. -/
theorem C72_source {s : Str} {ds : List Definition} (hp : parse s = .ok ds) {cfg : Config}
    (hrt : cfg.remove_typedef = true) :
    Printable ds cfg ↔ ∃ file m, ∀ n, m ≤ n → gen_code n ds cfg = .ok file := by
  constructor
  · exact fun hP => gen_comes (wellFormed_parse hp) hrt hP
  · rintro ⟨file, m, h⟩
    exact printable_of_gen hp hrt (h m (Nat.le_refl m))

/-- C72. The tool prints source for a text if and only if it is a file and printable. For every other
text it reports an error, panics or does not return. -/
theorem C72_exact (s : Str) (flags : Flags) :
    (∃ file m, ∀ n, m ≤ n → run n s flags = .printed file) ↔
      ∃ ds, parse s = .ok ds ∧ Printable ds flags.config := by
  constructor
  · rintro ⟨file, m, h⟩
    have h := h m (Nat.le_refl m)
    unfold run at h
    split at h
    · next ds hp =>
      refine ⟨ds, hp, ?_⟩
      split at h
      · next f hg => exact printable_of_gen hp rfl hg
      · cases h
      · cases h
      · cases h
    · cases h
    · cases h
    · cases h
  · rintro ⟨ds, hp, hP⟩
    obtain ⟨file, m, h⟩ := (C72_source hp rfl).1 hP
    exact ⟨file, m, fun n hn => by simp only [run, hp, h n hn]⟩

/-- C72. With any bound, nothing is printed for a file that is not printable. -/
theorem C72_never {s : Str} {ds : List Definition} (hp : parse s = .ok ds) {flags : Flags}
    (hP : ¬ Printable ds flags.config) (n : Nat) (file : RustFile) : run n s flags ≠ .printed file := by
  intro h
  unfold run at h
  rw [hp] at h
  dsimp only at h
  split at h
  · next f hg => exact hP (printable_of_gen hp rfl hg)
  · cases h
  · cases h
  · cases h

/-- C57, C72. Of the translatable files without circular definitions, those that are not printable are those
the tool panics at; it reports no error for them. -/
theorem C57_exact {s : Str} {ds : List Definition} (hp : parse s = .ok ds) {flags : Flags}
    (hv : Acyclic ds) (hl : ∀ a, ¬ LeadsTo ds a a) (hT : Translatable ds) :
    (¬ Printable ds flags.config) ↔ ∃ p, ∀ n, (definedNames ds).length < n → ds.length < n →
      run n s flags = .panic p := by
  obtain ⟨r, hr, hall⟩ := C67_ends hv hl flags.config
  let m := max (definedNames ds).length ds.length + 1
  have hm := hall m (by omega) (by omega)
  have hrun : ∀ p, r = .panic p → ∀ n, (definedNames ds).length < n → ds.length < n →
      run n s flags = .panic p := by
    rintro p rfl n h1 h2
    simp only [run, hp, hall n h1 h2]
  constructor
  · intro hP
    cases r with
    | ok file => exact absurd (printable_of_gen hp rfl hm) hP
    | err e => exact absurd hm (gen_noErr (wellFormed_parse hp) rfl hT m e)
    | panic p => exact ⟨p, hrun p rfl⟩
    | depth => exact absurd rfl hr
  · rintro ⟨p, h⟩ hP
    obtain ⟨file, k, hf⟩ := (C72_source hp rfl).1 hP
    have h1 := h (max k m) (by omega) (by omega)
    simp only [run, hp, hf (max k m) (by omega)] at h1
    cases h1

/-! ## Files with and without source -/

/-- An enum with negative numbers and no gap, a keyword as member of a structure, a union on a name
without a type: with source. -/
def printedText : Str :=
  c!"enum e { A = -2, B = -1, C = 7 }; struct s { e type; int more<>; }; typedef quadruple q; union u switch (q x) { case 1: s y; };"

example : ∃ ds, parse printedText = .ok ds ∧ Printable ds (Flags.config {}) := by
  have h : (match parse printedText with
      | .ok ds => (match gen_code 10 ds (Flags.config {}) with | .ok _ => true | _ => false)
      | _ => false) = true := by decide +kernel
  split at h
  · next ds hp =>
    split at h
    · next file hg => exact ⟨ds, hp, printable_of_gen hp rfl hg⟩
    · cases h
  · cases h

/-- The enum of `C57_negative_violated`: a negative number, -4, between the members, so no source with any
bound. -/
example (n : Nat) (file : RustFile) : run n c!"enum e { A = -5, B = -3 };" {} ≠ .printed file := by
  have hp : parse c!"enum e { A = -5, B = -3 };" = .ok [.type (.enum c!"e"
    [⟨c!"A", .constant (.decimal c!"-5")⟩, ⟨c!"B", .constant (.decimal c!"-3")⟩])] := rfl
  refine C72_never hp (fun hP => ?_) n file
  obtain ⟨c, hc, hk⟩ := hP.enumGaps rfl rfl c!"e" _ (List.mem_singleton.2 rfl) ⟨c!"A", .constant (.decimal c!"-5")⟩ (by simp)
    ⟨c!"B", .constant (.decimal c!"-3")⟩ (by simp) (-5) (-3) (-4)
    (.literal (c := (.decimal c!"-5")) (by decide) (by decide)) (.literal (c := (.decimal c!"-3")) (by decide) (by decide))
    (by decide) (by decide) (by decide)
  simp only [List.mem_cons, List.not_mem_nil, or_false] at hc
  rcases hc with rfl | rfl
  · exact absurd (Outcome.unique hk (.literal (c := (.decimal c!"-5")) (by decide) (by decide))) (by decide)
  · exact absurd (Outcome.unique hk (.literal (c := (.decimal c!"-3")) (by decide) (by decide))) (by decide)

end Xdr.Rpcgen
