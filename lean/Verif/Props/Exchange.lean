import Verif.Props.GenWrites
import Verif.RpcgenProofs.Unbounded
import Verif.Props.Versions
/-!
# Property C93: what one generated program writes, another reads

`Versions` is of C83 (`Spec/Versions.lean`), `Gapless` of C74 (`Spec/Accepted.lean`). Maximum lengths need no condition: the
generated code does not look at them (C56).
-/

namespace Xdr.Rpcgen

open Rfc (XVal)

/-- Whatever the first program writes for a value of its type (with agreeing discriminants), the second reads, as a value
that it writes as the same bytes; and the first has its value back from them. -/
def Delivers (env : Env) (ty : String) (env' : Env) (ty' : String) : Prop :=
  ∀ v bs, HasTy env (.named ty) v → Small env (.named ty) v → Selected env (.named ty) v →
    toBytes env (.named ty) v = .ok bs →
    (∃ w, (∀ m, w.depth < m → fromBytes env' m (.named ty') bs = .ok w) ∧ HasTy env' (.named ty') w ∧
      Selected env' (.named ty') w ∧ toBytes env' (.named ty') w = .ok bs) ∧
    ∀ m, v.depth < m → fromBytes env m (.named ty) bs = .ok v

/-- C93. Two runs of the tool, on an interface and on a later version of it, each with its own flags: whatever the first
program writes, the second reads. -/
theorem C93_versions_partial {n n' : Nat} {s s' : Str} {flags flags' : Flags} {file file' : RustFile}
    (h : run n s flags = .printed file) (h' : run n' s' flags' = .printed file')
    {defs defs' : List (String × Def)} (hd : file.defs = some defs) (hd' : file'.defs = some defs') :
    ∃ ds ds', parse s = .ok ds ∧ parse s' = .ok ds' ∧ (Supported ds flags.config → Supported ds' flags'.config →
      NamesDefined ds → Gapless ds flags.config.leeway →
      ∀ dflt, Versions dflt ds ds' → (if dflt then flags.use_union = true ∧ flags'.use_union = true
        else ∀ u b, .type (.union u b) ∈ ds → b.default = none) →
      (flags'.config.union_impl_indexer = true → ∀ d, ¬ DefaultIn ds' d) →
      ∀ t name, .type t ∈ ds → t.name = some name → (∀ d, t ≠ .declaration d) →
        (∀ e as, t = .enum e as → flags.use_std_trait = true → Positional ds as) →
        (∀ e as, .type (.enum e as) ∈ ds' → e = name → flags'.use_std_trait = true → Positional ds' as) →
        ∃ ty, upper_camel_case_ident name = .ok ty ∧
          Delivers (Xdr.program defs) ty.str (Xdr.program defs') ty.str) := by
  obtain ⟨ds, hp, hg⟩ := run_ok h
  obtain ⟨ds', hp', hg'⟩ := run_ok h'
  refine ⟨ds, ds', hp, hp', ?_⟩
  intro hok0 hok0' hdfd0 htight0 dflt hver0 hdf0 hci0 t0 name ht0 hname0 hnd0 hpos0 hpos0'
  have hwf : WellFormed (unbounded ds) := fun a ha => wellFormed_parse hp a (unbounded_atoms ds a ha)
  have hwf' : WellFormed (unbounded ds') := fun a ha => wellFormed_parse hp' a (unbounded_atoms ds' a ha)
  have hgu : gen_code n (unbounded ds) flags.config = .ok file := by rw [unbounded, C56_dropped, hg]
  have hgu' : gen_code n' (unbounded ds') flags'.config = .ok file' := by rw [unbounded, C56_dropped, hg']
  have hok := hok0.unbounded
  have hok' := hok0'.unbounded
  have hdfd := hdfd0.unbounded
  have htight := htight0.unbounded hok0
  have hver := hver0.unbounded
  have hdf : if dflt then flags.use_union = true ∧ flags'.use_union = true
      else ∀ u b, .type (.union u b) ∈ unbounded ds → b.default = none := by
    cases dflt with
    | true => exact hdf0
    | false =>
      intro u b hm
      obtain ⟨b0, hb, rfl⟩ := union_unbounded hm
      rw [default_free, hdf0 u b0 hb]
      rfl
  have hci : flags'.config.union_impl_indexer = true → ∀ d, ¬ DefaultIn (unbounded ds') d := fun hc d hd => by
    obtain ⟨d0, h0, -⟩ := defaultIn_unbounded hd
    exact hci0 hc d0 h0
  have ht : .type t0.free ∈ unbounded ds := mem_unbounded.2 ⟨t0, ht0, rfl⟩
  have hname : t0.free.name = some name := by rw [free_name, hname0]
  have hnd : ∀ d, t0.free ≠ .declaration d := fun d he => by
    cases t0 with
    | declaration d0 => exact hnd0 d0 rfl
    | _ => cases he
  have hpos : ∀ e as, t0.free = .enum e as → flags.use_std_trait = true → Positional (unbounded ds) as := by
    intro e as he hf
    cases t0 <;> cases he
    exact positional_unbounded.2 (hpos0 _ _ rfl hf)
  have hpos' : ∀ e as, .type (.enum e as) ∈ unbounded ds' → e = name → flags'.use_std_trait = true →
      Positional (unbounded ds') as := fun e as hm he hf =>
    positional_unbounded.2 (hpos0' e as (enum_unbounded.1 hm) he hf)
  generalize unbounded ds = us at *
  generalize unbounded ds' = us' at *
  generalize t0.free = t at *
  have hdw : DefaultsWritten us flags.config := by
    intro u b d hm hbd hc
    cases dflt with
    | true => simp [Flags.config, Config.union_complement_index, hdf.1] at hc
    | false =>
      rw [hdf u b hm] at hbd
      cases hbd
  obtain ⟨ty, hty, key⟩ := writes_of_gen hwf hgu hd hok hdfd hdw t name ht hname hnd hpos
  refine ⟨ty, hty, fun v bs hv hs hsel hb => ⟨?_, ?_⟩⟩
  · obtain ⟨x, hx, hxb⟩ := key v bs hv hs (fun _ => hsel) hb
    obtain ⟨y, hy, hyx⟩ := C74_same hok htight ht hx
    have hy' : Defined us dflt t y := by
      cases dflt with
      | true => exact hy
      | false => exact hy.plain hdf false ht
    obtain ⟨t', ht', hlater⟩ := hver _ _ (typeOf_of_mem hok.unambiguous ht hname)
    obtain ⟨hm', hname'⟩ := typeOf_mem ht'
    obtain ⟨ty', hty', bs', w, h1, h2, h3⟩ := conforms_of_gen hwf' hgu' hd' hok' dflt t' name y hm' hname'
      (hlater.name_kind hnd) (fun e as he hf => hpos' e as (he ▸ hm') (by subst he; cases hname'; rfl) hf)
      (fun h => by subst h; exact hdf.2) (Defined.later hver hy' hlater)
    cases hty.symm.trans hty'
    cases (hyx.trans hxb).symm.trans h1
    have hread := h3 _ (Nat.lt_succ_self _)
    obtain ⟨k, ⟨sv, bs', g1, g2, -⟩, -⟩ := decoded_normal (gen_consistent (run_of hwf' hok' hgu' hd') hci) _
      (.named ty.str) trivial _ _ _ (from_bytes_eq_ok hread)
    have hw : HasTy (Xdr.program defs') (.named ty.str) w := by rw [HasTy, g1.complete]; rfl
    exact ⟨w, h3, hw, selected_of_formed (gen_inv (run_of hwf' hok' hgu' hd'))
      ⟨_, (C84_accepted _ _ _ _).1 ⟨_, hread⟩⟩, h2⟩
  · obtain ⟨sv, hsv⟩ := Option.isSome_iff_exists.1 hv
    have hf := fits_of (gen_inv (run_of hwf hok hgu hd)) _ (Nat.le_refl _) (present_sound _ _ _ _ hsv) hs trivial
      ⟨bs, hb⟩ hsel
    exact fun m hm => C01_roundtrip _ _ _ _ _ hf hm hb

/-- C93. One interface, different flags: each program reads what the other writes. -/
theorem C93_flags_partial {n n' : Nat} {s : Str} {flags flags' : Flags} {file file' : RustFile}
    (h : run n s flags = .printed file) (h' : run n' s flags' = .printed file')
    {defs defs' : List (String × Def)} (hd : file.defs = some defs) (hd' : file'.defs = some defs') :
    ∃ ds, parse s = .ok ds ∧ (Supported ds flags.config → Supported ds flags'.config →
      NamesDefined ds → Gapless ds flags.config.leeway →
      (flags.use_union = true ∧ flags'.use_union = true ∨ ∀ u b, .type (.union u b) ∈ ds → b.default = none) →
      ∀ t name, .type t ∈ ds → t.name = some name → (∀ d, t ≠ .declaration d) →
        (∀ e as, t = .enum e as → flags.use_std_trait = true ∨ flags'.use_std_trait = true → Positional ds as) →
        ∃ ty, upper_camel_case_ident name = .ok ty ∧
          Delivers (Xdr.program defs) ty.str (Xdr.program defs') ty.str) := by
  obtain ⟨ds, ds', hp, hp', key⟩ := C93_versions_partial h h' hd hd'
  rw [hp] at hp'
  cases hp'
  refine ⟨ds, hp, fun hok hok' hdfd htight hdf t name ht hname hnd hpos => ?_⟩
  have hpos2 : ∀ e as, .type (.enum e as) ∈ ds → e = name → flags'.use_std_trait = true → Positional ds as := by
    intro e as hm he hf
    refine hpos e as ?_ (.inr hf)
    have h1 := typeOf_of_mem hok.unambiguous ht hname
    have h2 := typeOf_of_mem hok.unambiguous (t := .enum e as) hm (name := name) (by rw [← he]; rfl)
    rw [h1] at h2
    exact Option.some.inj h2
  rcases hdf with hu | hno
  · refine key hok hok' hdfd htight true (.refl hok true) hu ?_ t name ht hname hnd
      (fun e as he hf => hpos e as he (.inl hf)) hpos2
    simp [Flags.config, hu.2]
  · refine key hok hok' hdfd htight false (.refl hok false) (by simpa using hno) ?_ t name ht hname hnd
      (fun e as he hf => hpos e as he (.inl hf)) hpos2
    rintro - d ⟨u, b, hm, hbd⟩
    rw [hno u b hm] at hbd
    cases hbd

/-! ## The exclusions are needed -/

/-- One program writes, for a value of its type, what the other does not read, or reads as another value. -/
def Undelivered (s : Str) (flags flags' : Flags) (ty : String) : Prop :=
  ∃ file file' defs defs' v bs, run 5 s flags = .printed file ∧ run 5 s flags' = .printed file' ∧
    file.defs = some defs ∧ file'.defs = some defs' ∧ HasTy (Xdr.program defs) (.named ty) v ∧
    Small (Xdr.program defs) (.named ty) v ∧ toBytes (Xdr.program defs) (.named ty) v = .ok bs ∧
    ∀ m w, fromBytes (Xdr.program defs') m (.named ty) bs = .ok w → toBytes (Xdr.program defs') (.named ty) w ≠ .ok bs

/-- Without flags, the variant that fills a gap; with `--use-indexer` it is read as the first member. -/
theorem C93_enum_gap_violated : Undelivered c!"enum e { A = 1 };" {} { use_indexer := true } "E" := by
  refine ⟨_, _, _, _, .variant 0 [], [0, 0, 0, 0], rfl, rfl, rfl, rfl, rfl, ⟨by decide, trivial⟩, rfl, ?_⟩
  intro m w h
  match m with
  | 0 => cases h
  | 1 => cases h; decide
  | m + 2 => cases h; decide

/-- With `--use-union`, the discriminant of another case. -/
theorem C93_discriminant_violated :
    Undelivered c!"union u switch (bool k) { case FALSE: void; case TRUE: int x; };" { use_union := true } {} "U" := by
  refine ⟨_, _, _, _, .variant 0 [.bool true], [0, 0, 0, 1], rfl, rfl, rfl, rfl, rfl, ⟨trivial, trivial⟩, rfl, ?_⟩
  intro m w h
  match m with
  | 0 => cases h
  | 1 => cases h
  | 2 => cases h
  | m + 3 => cases h

/-! ## Examples -/

/-- Shapes, between any two settings of the flags. -/
example (flags flags' : Flags) : ∃ file file' defs defs', run 9 figuresText flags = .printed file ∧
    run 9 figuresText flags' = .printed file' ∧ file.defs = some defs ∧ file'.defs = some defs' ∧
    Delivers (Xdr.program defs) "Shape" (Xdr.program defs') "Shape" := by
  have hacc : ∀ flags : Flags, accepted 9 figures flags.config = true := by
    rintro ⟨a, b, c, d⟩
    revert a b c d
    decide +kernel
  obtain ⟨file, defs, hr, hd⟩ := run_accepted parse_figures (hacc flags)
  obtain ⟨file', defs', hr', hd'⟩ := run_accepted parse_figures (hacc flags')
  obtain ⟨ds, hp, key⟩ := C93_flags_partial hr hr' hd hd'
  rw [parse_figures] at hp
  cases hp
  obtain ⟨ty, hty, h⟩ := key (supported_figures _) (supported_figures _) named_figures (noLeeway_figures _).toGapless
    (.inr fun u b hm => by
      simp only [figures, List.mem_cons, reduceCtorEq, Definition.type.injEq, TypeDef.union.injEq,
        List.not_mem_nil, or_false, false_or] at hm
      obtain ⟨rfl, rfl⟩ := hm
      rfl)
    (.union c!"shape" figuresShape) c!"shape" (by simp [figures]) rfl (by simp) (by simp)
  cases hty
  exact ⟨file, file', defs, defs', hr, hr', hd, hd', h⟩

theorem named_badges : NamesDefined badges := by
  intro d name h he
  rcases h with h | ⟨s, ms, h, hd⟩ | ⟨u, b, v, h, hd⟩ | ⟨u, b, h, hd⟩ | ⟨u, b, h, hd⟩
  · simp [badges, TypedefIn] at h
  · simp [badges] at h
    obtain ⟨rfl, rfl⟩ := h
    simp at hd
    subst hd
    cases he
  · simp [badges] at h
    obtain ⟨rfl, rfl⟩ := h
    simp [badges_labels] at hd
    rcases hd with ⟨-, rfl⟩ | ⟨-, rfl⟩ <;> cases he
    simp [typeOf, badges, TypeDef.name]
  · simp [badges] at h
    obtain ⟨rfl, rfl⟩ := h
    cases hd
  · simp [badges] at h
    obtain ⟨rfl, rfl⟩ := h
    subst hd
    cases he
    simp [typeOf, badges, TypeDef.name]

/-- The numbers 0 are left out, so this needs `--use-indexer`. -/
theorem gapless_badges : Gapless badges { use_indexer := true : Flags }.config.leeway where
  enums h := by cases h
  unions h := by cases h
  defaults h := by cases h
  labels _ u b cond nm h hc l hl k hk := by
    simp only [badges, List.mem_cons, reduceCtorEq, Definition.type.injEq, TypeDef.union.injEq,
      List.not_mem_nil, or_false, false_or] at h
    obtain ⟨rfl, rfl⟩ := h
    cases hc
    refine ⟨.enum k, .name (t := .enum c!"colour" badgeColours) rfl ?_, rfl⟩
    generalize l.1 = v at hk
    cases hk with
    | enum ht ha hk =>
      cases ht
      exact .enum ha hk
    | typedef ht => cases ht

/-- The badges: all that a program of the first version with `--use-indexer` writes for a shape, one of the second
version with `--use-std-trait --use-union` reads; that the labels are longer than either version allows is no matter. -/
example : ∃ file file' defs defs', run 9 badgesText { use_indexer := true } = .printed file ∧
    run 9 laterBadgesText { use_std_trait := true, use_union := true } = .printed file' ∧ file.defs = some defs ∧
    file'.defs = some defs' ∧ Delivers (Xdr.program defs) "Shape" (Xdr.program defs') "Shape" := by
  obtain ⟨file, defs, hr, hd⟩ := run_accepted (n := 9) (flags := { use_indexer := true }) parse_badges
    (by decide +kernel)
  obtain ⟨file', defs', hr', hd'⟩ := run_accepted (n := 9) (flags := { use_std_trait := true, use_union := true })
    parse_laterBadges (by decide +kernel)
  refine ⟨file, file', defs, defs', hr, hr', hd, hd', ?_⟩
  obtain ⟨ds, ds', hp, hp', key⟩ := C93_versions_partial hr hr' hd hd'
  rw [parse_badges] at hp
  rw [parse_laterBadges] at hp'
  cases hp
  cases hp'
  obtain ⟨ty, hty, h⟩ := key (supported_badges _ rfl) (supported_laterBadges _) named_badges gapless_badges false
    versions_badges
    (fun u b hm => by
      simp only [badges, List.mem_cons, reduceCtorEq, Definition.type.injEq, TypeDef.union.injEq,
        List.not_mem_nil, or_false, false_or] at hm
      obtain ⟨rfl, rfl⟩ := hm
      rfl)
    (fun hc => by cases hc) (.union c!"shape" badgeUnion) c!"shape" (by simp [badges]) rfl (by simp) (by simp)
    (by
      intro e as hm he
      simp only [laterBadges, List.mem_cons, reduceCtorEq, Definition.type.injEq, TypeDef.enum.injEq,
        List.not_mem_nil, or_false, false_or] at hm
      obtain ⟨rfl, rfl⟩ := hm
      exact absurd he (by decide))
  cases hty
  exact h

end Xdr.Rpcgen
