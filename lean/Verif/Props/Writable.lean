import Verif.RpcgenProofs.Writes
import Verif.Props.Whole
/-!
# Property C90: which values can be written

`HasVariant` and `Refusal` (`Spec/Inside.lean`) say what is inside a value, and which variants have no number on the wire.
-/

namespace Xdr

/-- C90, for any program, type and value of the type: it is written if and only if each variant of an enum inside it has
a number. -/
theorem C90_exact {env : Env} {t : Ty} {v : Val} (h : HasTy env t v) :
    (∃ bs, toBytes env t v = .ok bs) ↔
      ∀ name i vs r, HasVariant env name i vs t v → ¬ Refusal env name i vs r := by
  obtain ⟨s, hs⟩ := Option.isSome_iff_exists.1 h
  have hp := present_sound _ _ _ _ hs
  constructor
  · exact fun hg name i vs r hc hr => contains_fails hc hr hp hg
  · intro hall
    cases e : toBytes env t v with
    | ok bs => exact ⟨bs, rfl⟩
    | _ =>
      obtain ⟨name, i, vs, hc, hr⟩ := fails_contains _ (Nat.le_refl _) hp _ e (by rintro ⟨b, hb⟩; cases hb)
      exact absurd hr (hall _ _ _ _ hc)

/-- C90: a failure is the failure of one of them. -/
theorem C90_failure {env : Env} {t : Ty} {v : Val} (h : HasTy env t v) (hno : ∀ bs, toBytes env t v ≠ .ok bs) :
    ∃ name i vs, HasVariant env name i vs t v ∧ Refusal env name i vs (toBytes env t v) := by
  obtain ⟨s, hs⟩ := Option.isSome_iff_exists.1 h
  exact fails_contains _ (Nat.le_refl _) (present_sound _ _ _ _ hs) _ rfl fun ⟨b, hb⟩ => hno b hb

/-- C90: what is inside a value has its own type, and is written if the value is. -/
theorem C90_inside {env : Env} {t : Ty} {v : Val} (h : HasTy env t v) {name : String} {i : Nat} {vs : List Val}
    (hc : HasVariant env name i vs t v) : HasTy env (.named name) (.variant i vs) ∧
      ((∃ bs, toBytes env t v = .ok bs) → ∃ bs, toBytes env (.named name) (.variant i vs) = .ok bs) := by
  obtain ⟨s, hs⟩ := Option.isSome_iff_exists.1 h
  have hp := present_sound _ _ _ _ hs
  obtain ⟨s', hp'⟩ := contains_pres hc hp
  exact ⟨by rw [HasTy, hp'.complete]; rfl, contains_good hc hp⟩

/-- C90: a program without `XdrIndexer`, and whose enums have at most 2^31 variants, writes all values. -/
theorem C90_all {env : Env} (hix : ∀ name vars impl, env name ≠ some (.indexer vars impl))
    (hen : ∀ name vars, env name = some (.enum vars) → vars.length ≤ 2147483648) {t : Ty} {v : Val} (h : HasTy env t v) :
    ∃ bs, toBytes env t v = .ok bs := by
  rw [C90_exact h]
  intro name i vs r hc hr
  obtain ⟨s, hs⟩ := Option.isSome_iff_exists.1 h
  obtain ⟨s', hp⟩ := contains_pres hc (present_sound _ _ _ _ hs)
  cases hr with
  | number h1 h2 =>
    have h3 := variant_of_enum hp h1
    have h4 := hen _ _ h1
    have h5 := Nat.mod_le i 4294967296
    omega
  | panic h1 _ => exact hix _ _ _ h1
  | err h1 _ => exact hix _ _ _ h1
  | depth h1 _ => exact hix _ _ _ h1

end Xdr

namespace Xdr.Rpcgen

/-- C90 for the program of any interface, under any flags, and any of its types: a value which is not written has inside
it the default arm of a union of the interface, which has no number with `use-indexer` (a panic), or a variant at or
beyond place 2^31 of an enum numbered by serde (an error). -/
theorem C90_generated {n : Nat} {s : Str} {flags : Flags} {file : RustFile} (h : run n s flags = .printed file)
    {defs : List (String × Def)} (hd : file.defs = some defs) :
    ∃ ds, parse s = .ok ds ∧ ∀ t v, HasTy (Xdr.program defs) t v →
      (∃ bs, toBytes (Xdr.program defs) t v = .ok bs) ∨
      (toBytes (Xdr.program defs) t v = .panic .unimplemented ∧ flags.config.union_impl_indexer = true ∧
        ∃ nm b ty i vs, .type (.union nm b) ∈ ds ∧ b.default.isSome = true ∧ upper_camel_case_ident nm = .ok ty ∧
          HasVariant (Xdr.program defs) ty.str i vs t v ∧
          WireNumbers.VariantAt (Xdr.program defs) ty.str i "Default") ∨
      (toBytes (Xdr.program defs) t v = .err .convert ∧
        ∃ name vars i vs, Xdr.program defs name = some (.enum vars) ∧ 2147483648 ≤ i ∧ i < vars.length ∧
          HasVariant (Xdr.program defs) name i vs t v) := by
  obtain ⟨ds, hp, hg⟩ := run_ok h
  refine ⟨ds, hp, fun t v hv => ?_⟩
  by_cases hok : ∃ bs, toBytes (Xdr.program defs) t v = .ok bs
  · exact .inl hok
  · right
    obtain ⟨name, i, vs, hc, hr⟩ := C90_failure hv (fun bs hb => hok ⟨bs, hb⟩)
    obtain ⟨sv, hs⟩ := Option.isSome_iff_exists.1 hv
    obtain ⟨s', hp'⟩ := contains_pres hc (present_sound _ _ _ _ hs)
    rcases gen_refusal rfl hg hd hr hp' with ⟨h1, h2, vars, h3, h4⟩ | ⟨h1, h2, nm, b, ty, h3, h4, h5, rfl, h6⟩
    · exact .inr ⟨h1, name, vars, i, vs, h3, h2, h4, hc⟩
    · exact .inl ⟨h1, h2, nm, b, ty, i, vs, h3, h4, h5, hc, h6⟩

/-- C90: in particular all values are written if unions have no indexers by the flags, or no default arms in the
interface, and enums at most 2^31 variants. -/
theorem C90_generated_all {n : Nat} {s : Str} {flags : Flags} {file : RustFile} (h : run n s flags = .printed file)
    {defs : List (String × Def)} (hd : file.defs = some defs)
    (hen : ∀ name vars, Xdr.program defs name = some (.enum vars) → vars.length ≤ 2147483648)
    {ds : List Definition} (hp : parse s = .ok ds)
    (hdef : flags.config.union_impl_indexer = false ∨ ∀ nm b, .type (.union nm b) ∈ ds → b.default = none)
    {t : Ty} {v : Val} (hv : HasTy (Xdr.program defs) t v) : ∃ bs, toBytes (Xdr.program defs) t v = .ok bs := by
  obtain ⟨ds', hp', key⟩ := C90_generated h hd
  cases hp.symm.trans hp'
  rcases key t v hv with h | ⟨-, h1, nm, b, ty, i, vs, h2, h3, -⟩ | ⟨-, name, vars, i, vs, h1, h2, h3, -⟩
  · exact h
  · rcases hdef with hf | hf
    · rw [hf] at h1
      cases h1
    · rw [hf nm b h2] at h3
      cases h3
  · have := hen name vars h1
    omega

/-- C90: with `use-indexer` a value which has a default arm inside is never written (the case of the arm itself is
`C48_indexer_violated`). -/
theorem C90_default {ds : List Definition} (hwf : WellFormed ds) (hu : Unambiguous ds)
    {cfg : Config} (hci : cfg.union_impl_indexer = true) (hcu : cfg.union_impl_union = false) {n : Nat}
    {file : RustFile} (hg : gen_code n ds cfg = .ok file) {defs : List (String × Def)} (hd : file.defs = some defs)
    {name : Str} {body : UnionBody} (hm : .type (.union name body) ∈ ds) {cond : TypeSpecifier} {nm : Str}
    {ks : List Int} (hcond : body.cond = .variable cond nm) (hlab : Labelled ds cond body.labels ks)
    {ty : RIdent} (hty : upper_camel_case_ident name = .ok ty) {d : Declaration} (hdd : body.default = some d) :
    ∃ i ts, WireNumbers.VariantAt (Xdr.program defs) ty.str i "Default" ∧ Payload d ts ∧
      ∀ t v vs, HasTy (Xdr.program defs) t v → HasTy (Xdr.program defs) (.tuple ts) (.seq vs) →
        HasVariant (Xdr.program defs) ty.str i vs t v → ∀ bs, toBytes (Xdr.program defs) t v ≠ .ok bs := by
  obtain ⟨i, ts, h1, h2, h3⟩ := C48_indexer_violated hwf hu hci hcu hg hd hm hcond hlab hty hdd
  refine ⟨i, ts, h1, h2, fun t v vs hv hvs hc bs hb => ?_⟩
  obtain ⟨p, hp⟩ := h3 vs hvs
  obtain ⟨bs', hb'⟩ := (C90_inside hv hc).2 ⟨bs, hb⟩
  rw [hp] at hb'
  cases hb'

/-- C90 for the printed text of a proper interface (`C73_whole`). -/
theorem C90_whole {s : Str} {ds : List Definition} (hp : parse s = .ok ds) {flags : Flags}
    (h : Proper ds flags.config)
    (hdef : flags.config.union_impl_indexer = false ∨ ∀ nm b, .type (.union nm b) ∈ ds → b.default = none) :
    ∃ out defs, (∀ n, (definedNames ds).length < n → ds.length < n → output n s flags = some out) ∧
      rustDefs out = some defs ∧
      ((∀ name vars, Xdr.program defs name = some (.enum vars) → vars.length ≤ 2147483648) →
        ∀ t v, HasTy (Xdr.program defs) t v → ∃ bs, toBytes (Xdr.program defs) t v = .ok bs) := by
  obtain ⟨file, out, defs, h1, ⟨⟨defs', hd⟩, -⟩, h3, -⟩ := C73_whole hp h
  let m := max (definedNames ds).length ds.length + 1
  obtain ⟨h4, h5⟩ := h1 m (by omega) (by omega)
  have h6 := C70_program h4 h5 hd
  rw [h3] at h6
  cases h6
  exact ⟨out, defs, fun n hn hn' => (h1 n hn hn').2, h3,
    fun hen t v hv => C90_generated_all h4 hd hen hp hdef hv⟩

/-! ## Examples -/

/-- A union with a default arm, inside a structure. -/
def letterText : Str := c!"enum kind { none = 0, text = 1 }; union note switch (kind k) { case none: void; default: int x; }; struct letter { note n; };"

/-- With `use-indexer` a letter without a note is written, and one with a note panics. -/
example : ∃ file defs, run 9 letterText { use_indexer := true } = .printed file ∧ file.defs = some defs ∧
    HasTy (Xdr.program defs) (.named "Letter") (.seq [.variant 0 []]) ∧
    HasTy (Xdr.program defs) (.named "Letter") (.seq [.variant 1 [.i32 7]]) ∧
    HasVariant (Xdr.program defs) "Note" 1 [.i32 7] (.named "Letter") (.seq [.variant 1 [.i32 7]]) ∧
    toBytes (Xdr.program defs) (.named "Letter") (.seq [.variant 0 []]) = .ok [0, 0, 0, 0] ∧
    toBytes (Xdr.program defs) (.named "Letter") (.seq [.variant 1 [.i32 7]]) = .panic .unimplemented := by
  set_option maxRecDepth 100000 in
  exact ⟨_, _, rfl, rfl, rfl, rfl, .part (u := .named "Note") (w := .variant 1 [.i32 7]) List.mem_cons_self .here, rfl, rfl⟩

/-- The enums of a program have at most 2^31 variants. -/
def fewVariants (defs : List (String × Def)) : Bool :=
  defs.all fun d => match d.2 with
    | .enum vars => decide (vars.length ≤ 2147483648)
    | _ => true

theorem fewVariants_iff {defs : List (String × Def)} (h : fewVariants defs = true) {name : String}
    {vars : List (String × Shape)} (he : Xdr.program defs name = some (.enum vars)) : vars.length ≤ 2147483648 := by
  unfold Xdr.program at he
  rw [Option.map_eq_some_iff] at he
  obtain ⟨d, h1, h2⟩ := he
  have := List.all_eq_true.1 h d (List.mem_of_find?_eq_some h1)
  rw [h2] at this
  simpa using this

/-- Without flags all letters are. -/
example : ∃ file defs, run 9 letterText {} = .printed file ∧ file.defs = some defs ∧
    HasTy (Xdr.program defs) (.named "Letter") (.seq [.variant 1 [.i32 7]]) ∧
    ∀ v, HasTy (Xdr.program defs) (.named "Letter") v →
      ∃ bs, toBytes (Xdr.program defs) (.named "Letter") v = .ok bs := by
  have h : ∃ file defs, run 9 letterText {} = .printed file ∧ file.defs = some defs ∧
      HasTy (Xdr.program defs) (.named "Letter") (.seq [.variant 1 [.i32 7]]) ∧ fewVariants defs = true := by
    set_option maxRecDepth 100000 in
    exact ⟨_, _, rfl, rfl, rfl, rfl⟩
  obtain ⟨file, defs, h1, h2, h3, h4⟩ := h
  obtain ⟨ds, hp, -⟩ := C90_generated h1 h2
  exact ⟨file, defs, h1, h2, h3, fun v hv =>
    C90_generated_all h1 h2 (fun _ _ he => fewVariants_iff h4 he) hp (.inl rfl) hv⟩

end Xdr.Rpcgen
