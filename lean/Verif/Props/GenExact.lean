import Verif.Props.Exchange
/-!
# Properties C56 and C74: what is left of an interface

`unbounded ds` is the file without its maximum lengths, `t.free` a definition without; `Gapless` is of
`Spec/Accepted.lean`. Where the flags leave no leeway, the maximum lengths are all that is lost.
-/

namespace Xdr.Rpcgen

open Rfc (XVal)

theorem free_kind {t : TypeDef} (h : ∀ d, t ≠ .declaration d) : ∀ d, t.free ≠ .declaration d := fun d he => by
  cases t with
  | declaration d0 => exact h d0 rfl
  | _ => cases he

theorem free_positional {ds : List Definition} {t : TypeDef} {P : Prop}
    (h : ∀ e as, t = .enum e as → P → Positional ds as) :
    ∀ e as, t.free = .enum e as → P → Positional (unbounded ds) as := by
  intro e as he hf
  cases t <;> cases he
  exact positional_unbounded.2 (h _ _ rfl hf)

/-- C56, exactly. With `--use-union` or without default arms, in a file that leaves no other leeway: the encodings written
for the values of a generated type (with agreeing discriminants) are those of the values the XDR type has without the
maximum lengths of the file. -/
theorem C56_written_exact {n : Nat} {s : Str} {flags : Flags} {file : RustFile} (h : run n s flags = .printed file)
    {defs : List (String × Def)} (hd : file.defs = some defs) :
    ∃ ds, parse s = .ok ds ∧ (Supported ds flags.config → NamesDefined ds → Gapless ds flags.config.leeway →
      (flags.use_union = true ∨ ∀ u b, .type (.union u b) ∈ ds → b.default = none) →
      ∀ t name, .type t ∈ ds → t.name = some name → (∀ d, t ≠ .declaration d) →
        (∀ e as, t = .enum e as → flags.use_std_trait = true → Positional ds as) →
        ∃ ty, upper_camel_case_ident name = .ok ty ∧
          ∀ bs, (∃ v, HasTy (Xdr.program defs) (.named ty.str) v ∧ Small (Xdr.program defs) (.named ty.str) v ∧
              (flags.use_union = true → Selected (Xdr.program defs) (.named ty.str) v) ∧
              toBytes (Xdr.program defs) (.named ty.str) v = .ok bs) ↔
            ∃ x, Defined (unbounded ds) true t.free x ∧ Rfc.encode x = some bs) := by
  obtain ⟨ds, hp, hg⟩ := run_ok h
  refine ⟨ds, hp, fun hok hdfd htight hdef t name ht hname hnd hpos => ?_⟩
  refine exact_of_gen (fun a ha => wellFormed_parse hp a (unbounded_atoms ds a ha))
    (by rw [unbounded, C56_dropped, hg]) hd hok.unbounded hdfd.unbounded (htight.unbounded hok) ?_ t.free name
    (mem_unbounded.2 ⟨t, ht, rfl⟩) (by rw [free_name, hname]) (free_kind hnd) (free_positional hpos)
  refine hdef.imp_right fun hno u b hm => ?_
  obtain ⟨b0, hb, rfl⟩ := union_unbounded hm
  rw [default_free, hno u b0 hb]
  rfl

theorem DefaultsRead.unbounded {ds : List Definition} {cfg : Config} (h : DefaultsRead ds cfg) :
    DefaultsRead (unbounded ds) cfg := by
  intro u b d hm hd
  obtain ⟨b0, hb, rfl⟩ := union_unbounded hm
  rw [default_free, Option.map_eq_some_iff] at hd
  obtain ⟨d0, hd0, rfl⟩ := hd
  refine (h u b0 d0 hb hd0).imp_right fun ⟨h1, h2, h3⟩ => ⟨h1, fun ho => h2 (ho.bounded d0 rfl), ?_⟩
  intro cond nm hc l hl k hk
  rw [labels_free] at hl
  obtain ⟨l0, hl0, rfl⟩ := List.mem_map.1 hl
  exact h3 cond nm hc l0 hl0 k hk.bounded

/-- C74 for files with maximum lengths that leave no other leeway: the decoders accept values of the interface without
these lengths only. -/
theorem C74_unlimited_partial {n : Nat} {s : Str} {flags : Flags} {file : RustFile}
    (h : run n s flags = .printed file) {defs : List (String × Def)} (hd : file.defs = some defs) :
    ∃ ds, parse s = .ok ds ∧ (Supported ds flags.config → NamesDefined ds → Gapless ds flags.config.leeway →
      DefaultsRead ds flags.config →
      ∀ t name, .type t ∈ ds → t.name = some name → (∀ d, t ≠ .declaration d) →
        (∀ e as, t = .enum e as → flags.use_std_trait = true → Positional ds as) →
        ∃ ty, upper_camel_case_ident name = .ok ty ∧
          ReadsOnly (Xdr.program defs) ty.str (Defined (unbounded ds) true t.free)) := by
  obtain ⟨ds, hp, hg⟩ := run_ok h
  refine ⟨ds, hp, fun hok hdfd htight hdf t name ht hname hnd hpos => ?_⟩
  have ht' : .type t.free ∈ unbounded ds := mem_unbounded.2 ⟨t, ht, rfl⟩
  obtain ⟨ty, hty, key, -⟩ := reads_of_gen (fun a ha => wellFormed_parse hp a (unbounded_atoms ds a ha))
    (by rw [unbounded, C56_dropped, hg]) hd hok.unbounded hdfd.unbounded hdf.unbounded t.free name
    ht' (by rw [free_name, hname]) (free_kind hnd) (free_positional hpos)
  refine ⟨ty, hty, fun m bs v hv => ?_⟩
  obtain ⟨x, bs', h1, h2, h3⟩ := key m bs v hv
  obtain ⟨y, h4, h5⟩ := C74_same hok.unbounded (htight.unbounded hok) ht' h1
  exact ⟨y, bs', h4, h5.trans h2, h3⟩

/-- The values of the file itself are among them. -/
theorem C56_unbounded_values {ds : List Definition} {cfg : Config} (hok : Supported ds cfg) {dflt : Bool} {t : TypeDef}
    {name : Str} (ht : .type t ∈ ds) (hname : t.name = some name) {x : XVal} (hx : Defined ds dflt t x) :
    Defined (unbounded ds) dflt t.free x := by
  obtain ⟨t', h1, h2⟩ := versions_unbounded hok dflt name t (typeOf_of_mem hok.unambiguous ht hname)
  rw [typeOf_unbounded, typeOf_of_mem hok.unambiguous ht hname] at h1
  cases h1
  exact Defined.later (versions_unbounded hok dflt) hx h2

/-! ## Example -/

/-- The labels of badges, which have a maximum length of 4: exactly the encodings of strings of any length are written. -/
example : ∃ file defs, run 9 badgesText { use_indexer := true } = .printed file ∧ file.defs = some defs ∧
    ∀ bs, (∃ v, HasTy (Xdr.program defs) (.named "Label") v ∧ Small (Xdr.program defs) (.named "Label") v ∧
        toBytes (Xdr.program defs) (.named "Label") v = .ok bs) ↔
      ∃ cs : List Char, (utf8Bytes cs).length < 2 ^ 32 ∧ Rfc.encode (.struct [.string (utf8Bytes cs)]) = some bs := by
  obtain ⟨file, defs, hr, hd⟩ := run_accepted (n := 9) (flags := { use_indexer := true }) parse_badges
    (by decide +kernel)
  refine ⟨file, defs, hr, hd, fun bs => ?_⟩
  obtain ⟨ds, hp, key⟩ := C56_written_exact hr hd
  rw [parse_badges] at hp
  cases hp
  obtain ⟨ty, hty, h⟩ := key (supported_badges _ rfl) named_badges gapless_badges
    (.inr fun u b hm => by
      simp only [badges, List.mem_cons, reduceCtorEq, Definition.type.injEq, TypeDef.union.injEq,
        List.not_mem_nil, or_false, false_or] at hm
      obtain ⟨rfl, rfl⟩ := hm
      rfl)
    (.struct c!"label" [.string c!"text" (some (.identifier c!"MAX"))]) c!"label" (by simp [badges]) rfl (by simp)
    (by simp)
  cases hty
  constructor
  · rintro ⟨v, h1, h2, h3⟩
    obtain ⟨x, hx, hb⟩ := (h bs).1 ⟨v, h1, h2, (by simp), h3⟩
    cases hx with
    | struct hm =>
      cases hm with
      | cons h1 h2 =>
        cases h2
        cases h1 with
        | string h _ => exact ⟨_, h, hb⟩
  · rintro ⟨cs, h1, h2⟩
    obtain ⟨v, g1, g2, -, g3⟩ := (h bs).2 ⟨_, .struct (.cons (.string h1 fun _ _ h => by cases h) .nil), h2⟩
    exact ⟨v, g1, g2, g3⟩

end Xdr.Rpcgen
