import Verif.RpcgenProofs.NoErr
import Verif.Props.GenVariants
import Verif.Props.GenLimits
import Verif.Props.Ends
import Verif.Props.EndToEnd
/-!
# Property C72: which interfaces the tool has source for

An interface whose numbers are found and fit and whose types are those of the README's table
(`Translatable`, `Spec/Translatable.lean`) is translated, and no other is.
-/

namespace Xdr.Rpcgen

/-- C72. No file outside `Translatable` gets source: numbers that are missing or do not fit, types
without a Rust type and unions on other types are refused, whatever the bound. -/
theorem C72_only {s : Str} {ds : List Definition} (hp : parse s = .ok ds) {cfg : Config}
    (hrt : cfg.remove_typedef = true) {n : Nat} {file : RustFile} (hg : gen_code n ds cfg = .ok file) :
    Translatable ds := by
  have hwf := wellFormed_parse hp
  refine ⟨?_, ?_, ?_, ?_, ?_, ?_, ?_⟩
  · intro name c hc
    by_contra hr
    obtain ⟨e, he⟩ := C65_rejected hp hc (by omega) n cfg
    rw [hg] at he
    cases he
  · intro e as hm a ha
    obtain ⟨i, hconv, -⟩ := gen_code_enum hg hm
    obtain ⟨ix, _, hix, -⟩ := convert_enum_ok hconv
    obtain ⟨p, -, hr⟩ := forall₂_mem_left (GR.mapM_ok.1 hix) ha
    simp only [GR.bind_eq_ok, GR.ok.injEq] at hr
    obtain ⟨k, hk, -⟩ := hr
    refine ⟨k, outcome_of_resolve (cfg := cfg) (t := .i32) hwf n (fun c hc => ?_) (by rw [hk]; rfl)⟩
    exact members_ok hwf hm a ha (.number c) (by simp [hc, Value.atoms])
  · rintro d ⟨name, ms, hm, hd⟩
    obtain ⟨i, hconv, -⟩ := gen_code_struct hg hm
    obtain ⟨-, hfs⟩ := convert_struct_ok hconv
    obtain ⟨r, -, hr⟩ := forall₂_mem_left hfs hd
    obtain ⟨_, _, ty, op, -, -, hty, -⟩ := convertField_ok hr
    exact ⟨ty, op, hrt ▸ decl_sound hty⟩
  · intro u b hm
    obtain ⟨i, hconv, -⟩ := gen_code_union hg hm
    obtain ⟨_, _, _, -, hcases, -⟩ := convert_union_ok hconv
    unfold unionCases at hcases
    cases hb : b.cond with
    | «variable» ts nm =>
      rw [hb] at hcases
      refine ⟨ts, nm, rfl, ?_⟩
      cases ts with
      | int sg => exact .int sg
      | bool => exact .bool
      | identifier i => exact .name i
      | _ => cases hcases
    | _ => rw [hb] at hcases; cases hcases
  · intro u b ts nm hm hb hts l hl
    obtain ⟨i, hconv, -⟩ := gen_code_union hg hm
    obtain ⟨_, _, _, -, hcases, -⟩ := convert_union_ok hconv
    have key : ∀ values, unionIndexed (setup_context ds cfg) n b.specs = .ok values →
        ∃ k, Outcome ds 0 4294967295 l.1 (some k) := by
      intro values hv
      have hmem : (l.2, l.1) ∈ b.specs.flatMap fun spec => spec.values.map fun v => (spec.declaration, v) := by
        obtain ⟨sp, hsp, hl⟩ := List.mem_flatMap.1 hl
        obtain ⟨v, hv, rfl⟩ := List.mem_map.1 hl
        exact List.mem_flatMap.2 ⟨sp, hsp, List.mem_map_of_mem hv⟩
      obtain ⟨p, -, hr⟩ := forall₂_mem_left (GR.mapM_ok.1 hv) hmem
      simp only [GR.bind_eq_ok, GR.ok.injEq] at hr
      obtain ⟨k, hk, -⟩ := hr
      refine ⟨k, outcome_of_resolve (cfg := cfg) (t := .u32) hwf n (fun c hc => ?_) (by rw [hk]; rfl)⟩
      exact labels_ok hwf hm l hl (.number c) (by simp [hc, Value.atoms])
    unfold unionCases at hcases
    rw [hb] at hcases
    cases ts with
    | int sg =>
      simp only [GR.bind_eq_ok] at hcases
      obtain ⟨values, h1, -⟩ := hcases
      exact key values h1
    | identifier i =>
      simp only [GR.bind_eq_ok] at hcases
      obtain ⟨values, h1, -⟩ := hcases
      exact key values h1
    | bool => exact absurd rfl hts
    | _ => cases hcases
  · intro u b hm l hl
    obtain ⟨_, _, _, _, _, vs, _, _, -, -, -, -, -, -, hvs, -⟩ := C66_variants_partial hp hg hm
    obtain ⟨v, -, hv⟩ := forall₂_mem_left hvs hl
    obtain ⟨ts, harm, -⟩ := hv.arm
    rw [← hrt]
    generalize v.attr = at_ at harm
    generalize l.2 = d at harm ⊢
    cases harm with
    | void => exact .inl rfl
    | plain h => exact .inr ⟨_, _, h⟩
    | fixed h _ => exact .inr ⟨_, _, h⟩
    | «variable» h _ => exact .inr ⟨_, _, h⟩
    | wrapped h _ _ => exact .inr ⟨_, _, h⟩
  · rintro d ⟨u, b, hm, hb⟩
    obtain ⟨_, _, _, _, _, vs, _, dflt, -, -, -, -, -, -, -, -, -, hd⟩ := C66_variants_partial hp hg hm
    rw [hb] at hd
    rw [← hrt]
    cases hd with
    | void => exact .inl rfl
    | some h => exact .inr ⟨_, _, h⟩

/-- C72. A file the generator has source for, with none of the names and numbers it panics at (`Tame`) and
without circular definitions, is translated; the bound plays no part beyond the size of the file. -/
theorem C72_tame {s : Str} {ds : List Definition} (hp : parse s = .ok ds) {cfg : Config}
    (hrt : cfg.remove_typedef = true) (ht : Tame ds cfg) (hv : Acyclic ds) (hl : ∀ a, ¬ LeadsTo ds a a)
    (hT : Translatable ds) :
    ∃ file, ∀ n, (definedNames ds).length < n → ds.length < n → gen_code n ds cfg = .ok file := by
  obtain ⟨r, hr, hall⟩ := C67_ends hv hl cfg
  let m := max (definedNames ds).length ds.length + 1
  have hm := hall m (by omega) (by omega)
  cases r with
  | ok file => exact ⟨file, hall⟩
  | err e => exact absurd hm (gen_noErr (wellFormed_parse hp) hrt hT m e)
  | panic p => exact absurd hm (gen_safe (wellFormed_parse hp) ht m p)
  | depth => exact absurd rfl hr

/-- C72. So the tool prints source for a tame file without circular definitions if and only if the file is
translatable, with any flags; otherwise it reports an error. -/
theorem C72_tame_exact {s : Str} {ds : List Definition} (hp : parse s = .ok ds) {flags : Flags}
    (ht : Tame ds flags.config) (hv : Acyclic ds) (hl : ∀ a, ¬ LeadsTo ds a a) :
    (Translatable ds ∧ ∃ file, ∀ n, (definedNames ds).length < n → ds.length < n →
      run n s flags = .printed file) ∨
    (¬ Translatable ds ∧ ∃ e, ∀ n, (definedNames ds).length < n → ds.length < n →
      run n s flags = .genError e) := by
  by_cases hT : Translatable ds
  · obtain ⟨file, hf⟩ := C72_tame hp (cfg := flags.config) rfl ht hv hl hT
    exact .inl ⟨hT, file, fun n h1 h2 => by simp only [run, hp, hf n h1 h2]⟩
  · refine .inr ⟨hT, ?_⟩
    obtain ⟨r, hr, hall⟩ := C67_ends hv hl flags.config
    let m := max (definedNames ds).length ds.length + 1
    have hm := hall m (by omega) (by omega)
    cases r with
    | ok file => exact absurd (C72_only hp rfl hm) hT
    | err e => exact ⟨e, fun n h1 h2 => by simp only [run, hp, hall n h1 h2]⟩
    | panic p => exact absurd hm (gen_safe (wellFormed_parse hp) ht m p)
    | depth => exact absurd rfl hr

/-! ## Files that are refused, and what is missing -/

/-- A file with one structure of one member. -/
theorem tame_quadruple (cfg : Config) :
    Tame [.type (.struct c!"s" [.variable .quadruple c!"q"])] cfg where
  names s h := by
    simp [atoms, Definition.atoms, TypeDef.atoms, declsAtoms, Declaration.atoms, TypeSpecifier.atoms] at h
    rcases h with rfl | rfl
    · exact ⟨'s', [], rfl, rfl⟩
    · exact ⟨'q', [], rfl, rfl⟩
  members s ms h d hd := by
    simp at h
    obtain ⟨rfl, rfl⟩ := h
    simp at hd
    subst hd
    exact ⟨_, rfl, by decide⟩
  bools u b nm h := by simp at h
  enums e as h := by simp at h
  labels u b h := by simp at h

/-- `quadruple` has no Rust type: the file is not translatable, and the tool reports an error. -/
example (flags : Flags) : ∃ e, ∀ n, 1 < n → run n c!"struct s { quadruple q; };" flags = .genError e := by
  have hp : parse c!"struct s { quadruple q; };" =
      .ok [.type (.struct c!"s" [.variable .quadruple c!"q"])] := rfl
  have hv : Acyclic [.type (.struct c!"s" [.variable .quadruple c!"q"])] := by
    intro a h
    have hu : ∀ a b, ¬ Uses [.type (.struct c!"s" [.variable .quadruple c!"q"])] a b := by
      rintro a b (h | h) <;> simp [constOf, memberOf] at h
    cases h with
    | step h => exact hu _ _ h
    | more _ h => exact hu _ _ h
  have hl : ∀ a, ¬ LeadsTo [.type (.struct c!"s" [.variable .quadruple c!"q"])] a a := by
    intro a h
    cases h with
    | step h _ =>
      have := (typeOf_mem h).1
      simp at this
    | more h _ _ =>
      have := (typeOf_mem h).1
      simp at this
  rcases C72_tame_exact (flags := flags) hp (tame_quadruple _) hv hl with ⟨hT, -⟩ | ⟨-, e, he⟩
  · obtain ⟨ty, op, h⟩ := hT.members (.variable .quadruple c!"q") ⟨c!"s", [.variable .quadruple c!"q"], by simp, by simp⟩
    cases h with
    | «variable» h => cases h
  · exact ⟨e, fun n hn => he n (Nat.lt_trans (by decide) hn) hn⟩

/-- C57 is false of translatable files: one at which the tool panics. -/
theorem C57_translatable_violated : ∃ ds, parse c!"struct __ { int i; };" = .ok ds ∧ Translatable ds ∧
    ∀ n cfg, ∃ p, gen_code (n + 1) ds cfg = .panic p := by
  refine ⟨_, rfl, ⟨?_, ?_, ?_, ?_, ?_, ?_, ?_⟩, fun n cfg => ⟨_, rfl⟩⟩
  · intro name c h; simp at h
  · intro e as h; simp at h
  · rintro d ⟨s, ms, h, hd⟩
    simp at h
    obtain ⟨rfl, rfl⟩ := h
    simp at hd
    subst hd
    exact ⟨_, _, .variable .int⟩
  · intro u b h; simp at h
  · intro u b ts nm h; simp at h
  · intro u b h; simp at h
  · rintro d ⟨u, b, h, -⟩
    simp at h

end Xdr.Rpcgen
