import Verif.Props.GenWork
import Verif.RpcgenProofs.FixedOpaque
/-!
# Property C95: memory generated decoders request in advance

C75 for generated programs, the bounds it asks for coming from the interface as in C94.
-/

namespace Xdr.Rpcgen

theorem size_bound {α : Type} (f : α → Nat) (l : List α) : ∃ S, ∀ a ∈ l, f a ≤ S := by
  induction l with
  | nil => exact ⟨0, by simp⟩
  | cons a l ih =>
    obtain ⟨S, hS⟩ := ih
    refine ⟨max (f a) S, fun b hb => ?_⟩
    rcases List.mem_cons.1 hb with rfl | hb
    · omega
    · have := hS b hb
      omega

/-- The size of an element of a list type. -/
def elementSize (size : Ty → Nat) : Ty → Nat
  | .vec e => size e
  | _ => 0

/-- The length of opaque data of fixed length. -/
def opaqueLength : Ty → Nat
  | .opaqueFixed len => len
  | _ => 0

theorem lists_within {defs : List (String × Def)} {t : Ty} (he : ElementsSized (Xdr.program defs) t) (size : Ty → Nat) :
    ∃ S, ListsWithin (Xdr.program defs) size S t := by
  obtain ⟨S, hS⟩ := size_bound (elementSize size) (allTypes defs t)
  exact ⟨S, fun e hr => ⟨hS _ (mem_allTypes hr), .inr (he.1 e hr)⟩⟩

theorem gen_elements {n : Nat} {s : Str} {flags : Flags} {file : RustFile} (h : run n s flags = .printed file)
    {defs : List (String × Def)} (hd : file.defs = some defs) (hsz : file.Sized) :
    ∃ ds, parse s = .ok ds ∧ (NoSelfMembers ds → NoEmptyArrays ds → ∀ ty,
      ElementsSized (Xdr.program defs) (.named ty)) := by
  obtain ⟨ds, hp, hg⟩ := run_ok h
  refine ⟨ds, hp, fun hns hne ty => ?_⟩
  have hva := variableArray_lookup hg hd
  exact elements_sized (fun x d hx => types_Elems hd hva (guarded hd hva hsz (gen_boxes rfl hg hns))
    (item_full rfl (parseWith_text hp) hne hg) hx) ty

/-- C95: when decoding succeeds, the memory requested in advance is at most proportional to the length of the input.
`size` is `size_of`. -/
theorem C95_accepted {n : Nat} {s : Str} {flags : Flags} {file : RustFile} (h : run n s flags = .printed file)
    {defs : List (String × Def)} (hd : file.defs = some defs) (hsz : file.Sized) :
    ∃ ds, parse s = .ok ds ∧ (NoSelfMembers ds → NoEmptyArrays ds → ∀ (size : Ty → Nat) ty, ∃ K,
      ∀ (m : Nat) (input : Bytes) v, fromBytes (Xdr.program defs) m (.named ty) input = .ok v →
        reserved (Xdr.program defs) size m (.named ty) input ≤ K * input.length) := by
  obtain ⟨ds, hp, key⟩ := gen_elements h hd hsz
  refine ⟨ds, hp, fun hns hne size ty => ?_⟩
  obtain ⟨S, hS⟩ := lists_within (key hns hne ty) size
  refine ⟨S + 4, fun m input v hv => ?_⟩
  have := C75_accepted _ size S m _ input v hv hS
  rw [Nat.add_mul]
  omega

/-- C95: whatever the outcome, it is at most proportional to the length of the input, but for the length given for
one opaque datum, which may be anything below 2^32. -/
theorem C95_any {n : Nat} {s : Str} {flags : Flags} {file : RustFile} (h : run n s flags = .printed file)
    {defs : List (String × Def)} (hd : file.defs = some defs) (hsz : file.Sized) :
    ∃ ds, parse s = .ok ds ∧ (NoSelfMembers ds → NoEmptyArrays ds → ∀ (size : Ty → Nat) ty, ∃ K,
      ∀ (m : Nat) (input : Bytes),
        reserved (Xdr.program defs) size m (.named ty) input ≤ K * (input.length / 4 + 1) + (2 ^ 32 - 1)) := by
  obtain ⟨ds, hp, key⟩ := gen_elements h hd hsz
  refine ⟨ds, hp, fun hns hne size ty => ?_⟩
  obtain ⟨S, hS⟩ := lists_within (key hns hne ty) size
  obtain ⟨F, hF⟩ := size_bound opaqueLength (allTypes defs (.named ty))
  obtain ⟨M, hM⟩ : ∃ M, M = 2 ^ 20 := ⟨_, rfl⟩
  refine ⟨S + 4 + M + F, fun m input => ?_⟩
  have := C75_all _ size S (F + (2 ^ 32 - 1)) m _ input hS
    (fun len hr => Nat.le_trans (hF _ (mem_allTypes hr)) (Nat.le_add_right _ _)) (.inl (Nat.le_add_left _ _))
  rw [← hM] at this
  have h1 : S * input.length ≤ S * (4 * (input.length / 4 + 1)) := Nat.mul_le_mul_left _ (by omega)
  have h2 : F ≤ F * (input.length / 4 + 1) := Nat.le_mul_of_pos_right _ (by omega)
  have h3 : S * (4 * (input.length / 4 + 1)) = 4 * (S * (input.length / 4 + 1)) := by rw [Nat.mul_left_comm]
  have h4 : M * min m (input.length / 4) ≤ M * (input.length / 4 + 1) := Nat.mul_le_mul_left _ (by omega)
  rw [Nat.add_mul, Nat.add_mul, Nat.add_mul]
  omega

/-- C95: whatever the outcome, it is at most proportional to the length of the input, when the interface has opaque data
of fixed lengths only (`FixedOpaques`). -/
theorem C95_fixed {n : Nat} {s : Str} {flags : Flags} {file : RustFile} (h : run n s flags = .printed file)
    {defs : List (String × Def)} (hd : file.defs = some defs) (hsz : file.Sized) :
    ∃ ds, parse s = .ok ds ∧ (NoSelfMembers ds → NoEmptyArrays ds → FixedOpaques ds →
      ∀ (size : Ty → Nat) ty, ty ≠ "serde_xdr::opaque::VariableArray" → ∃ K, ∀ (m : Nat) (input : Bytes),
        reserved (Xdr.program defs) size m (.named ty) input ≤ K * (input.length / 4 + 1)) := by
  obtain ⟨ds, hp, key⟩ := gen_elements h hd hsz
  refine ⟨ds, hp, fun hns hne hfo size ty hty => ?_⟩
  obtain ⟨ds', hp', hg⟩ := run_ok h
  cases hp.symm.trans hp'
  obtain ⟨S, hS⟩ := lists_within (key hns hne ty) size
  obtain ⟨F, hF⟩ := size_bound opaqueLength (allTypes defs (.named ty))
  obtain ⟨M, hM⟩ : ∃ M, M = 2 ^ 20 := ⟨_, rfl⟩
  refine ⟨S + 4 + M + F, fun m input => ?_⟩
  have := C75_reserved_partial _ size S F m _ input hS ⟨fun len hr => hF _ (mem_allTypes hr),
    no_opaques (fun x d hx hne => types_NoOpaque hg hd (item_plain rfl hfo hg) hx hne) hty⟩
  rw [← hM] at this
  have h1 : S * input.length ≤ S * (4 * (input.length / 4 + 1)) := Nat.mul_le_mul_left _ (by omega)
  have h2 : F ≤ F * (input.length / 4 + 1) := Nat.le_mul_of_pos_right _ (by omega)
  have h3 : S * (4 * (input.length / 4 + 1)) = 4 * (S * (input.length / 4 + 1)) := by rw [Nat.mul_left_comm]
  have h4 : M * min m (input.length / 4) ≤ M * (input.length / 4 + 1) := Nat.mul_le_mul_left _ (by omega)
  rw [Nat.add_mul, Nat.add_mul, Nat.add_mul]
  omega

/-- C95 for the printed text of a proper interface (`C73_whole`). -/
theorem C95_whole {s : Str} {ds : List Definition} (hp : parse s = .ok ds) {flags : Flags}
    (h : Proper ds flags.config) (hns : NoSelfMembers ds) (hne : NoEmptyArrays ds) :
    ∃ out defs, (∀ n, (definedNames ds).length < n → ds.length < n → output n s flags = some out) ∧
      rustDefs out = some defs ∧ ∀ (size : Ty → Nat) ty, ∃ K, ∀ (m : Nat) (input : Bytes),
        (∀ v, fromBytes (Xdr.program defs) m (.named ty) input = .ok v →
          reserved (Xdr.program defs) size m (.named ty) input ≤ K * input.length) ∧
        reserved (Xdr.program defs) size m (.named ty) input ≤ K * (input.length / 4 + 1) + (2 ^ 32 - 1) := by
  obtain ⟨file, out, defs, h1, ⟨⟨defs', hd⟩, hsz, -⟩, h3, -⟩ := C73_whole hp h
  let m := max (definedNames ds).length ds.length + 1
  obtain ⟨h4, h5⟩ := h1 m (by omega) (by omega)
  have h6 := C70_program h4 h5 hd
  rw [h3] at h6
  cases h6
  obtain ⟨ds', hp', k1⟩ := C95_accepted h4 hd hsz
  cases hp.symm.trans hp'
  obtain ⟨ds', hp', k2⟩ := C95_any h4 hd hsz
  cases hp.symm.trans hp'
  refine ⟨out, defs, fun n hn hn' => (h1 n hn hn').2, h3, fun size ty => ?_⟩
  obtain ⟨K, hK⟩ := k1 hns hne size ty
  obtain ⟨L, hL⟩ := k2 hns hne size ty
  refine ⟨K + L, fun m input => ⟨fun v hv => ?_, ?_⟩⟩
  · rw [Nat.add_mul]
    exact Nat.le_trans (hK m input v hv) (Nat.le_add_right _ _)
  · rw [Nat.add_mul]
    have := hL m input
    omega

theorem reserved_member {env : Env} {size : Ty → Nat} {x f : String} {t : Ty} {fs : List (String × Ty)}
    (hx : env x = some (.struct ((f, t) :: fs))) (n : Nat) (b : Bytes) :
    reserved env size n t b ≤ reserved env size (n + 1) (.named x) b := by
  unfold reserved
  have h1 : (deTyA env size n t b).1 ≤ (deDefA (deTyA env size n) x (.struct ((f, t) :: fs)) b).1 := by
    simp only [deDefA, List.map_cons, visitEachA, List.length_cons, List.length_map]
    refine Nat.le_trans ?_ (bind_cost _ _ b)
    rw [next_bind]
    exact bind_cost _ _ b
  rw [deTyA]
  simp only [hx]
  exact h1

/-- C95: the length given for opaque data is requested whatever it is, with a maximum in the interface too, and
nothing following. -/
theorem C95_opaque (size : Ty → Nat) : ∃ file defs,
    run 5 c!"struct s { opaque o<16>; };" {} = .printed file ∧ file.defs = some defs ∧
    ∀ count : UInt32, count.toNat ≤ reserved (Xdr.program defs) size 2 (.named "S") (Rfc.beBytes 4 count.toNat) := by
  have hx : ∃ file defs, run 5 c!"struct s { opaque o<16>; };" {} = .printed file ∧ file.defs = some defs ∧
      Xdr.program defs "S" = some (.struct [("o", .opaqueVar)]) := by
    set_option maxRecDepth 100000 in exact ⟨_, _, rfl, rfl, rfl⟩
  obtain ⟨file, defs, h1, h2, h3⟩ := hx
  refine ⟨file, defs, h1, h2, fun count => ?_⟩
  have h4 := reserved_opaque (Xdr.program defs) size 0 count []
  rw [List.append_nil] at h4
  exact Nat.le_trans (Nat.le_of_eq h4.symm) (reserved_member h3 1 _)

/-- C95: so it is for opaque data of fixed length in an arm of a union, with `--use-union`: four bytes are declared, 256 are
requested for a message that says so. -/
theorem C95_arm (size : Ty → Nat) : ∃ file defs,
    run 5 c!"enum e { A = 0 }; union u switch (e k) { case A: opaque a[4]; };" { use_union := true } = .printed file ∧
    file.defs = some defs ∧
    256 ≤ reserved (Xdr.program defs) size 5 (.named "U") [0, 0, 0, 0, 0, 0, 1, 0] := by
  have hx : ∃ file defs, run 5 c!"enum e { A = 0 }; union u switch (e k) { case A: opaque a[4]; };" { use_union := true } =
      .printed file ∧ file.defs = some defs ∧
      reserved (Xdr.program defs) size 5 (.named "U") [0, 0, 0, 0, 0, 0, 1, 0] = 256 := by
    set_option maxRecDepth 100000 in exact ⟨_, _, rfl, rfl, rfl⟩
  obtain ⟨file, defs, h1, h2, h3⟩ := hx
  exact ⟨file, defs, h1, h2, Nat.le_of_eq h3.symm⟩

/-- The catalogue, with any flags. -/
example (flags : Flags) : ∃ out defs, (∀ n, 6 < n → output n catalogueText flags = some out) ∧
    rustDefs out = some defs ∧ ∀ (size : Ty → Nat) ty, ∃ K, ∀ (m : Nat) (input : Bytes) v,
      fromBytes (Xdr.program defs) m (.named ty) input = .ok v →
        reserved (Xdr.program defs) size m (.named ty) input ≤ K * input.length := by
  obtain ⟨out, defs, h1, h2, h3⟩ := C95_whole parse_catalogue (proper_catalogue flags) noSelfMembers_catalogue
    noEmptyArrays_catalogue
  refine ⟨out, defs, fun n hn => h1 n ?_ ?_, h2, fun size ty => ?_⟩
  · exact Nat.lt_of_le_of_lt (by decide) hn
  · exact Nat.lt_of_le_of_lt (by decide) hn
  · obtain ⟨K, hK⟩ := h3 size ty
    exact ⟨K, fun m input => (hK m input).1⟩

def linksText : Str := c!"struct link { int v<>; opaque id[8]; string s<>; link *next; };"

def links : List Definition := [.type (.struct c!"link" [
  .variableArray (.int true) c!"v" none, .opaqueFixedArray c!"id" (.constant (.decimal c!"8")), .string c!"s" none,
  .optionVariable (.identifier c!"link") c!"next"])]

theorem fixedOpaques_links : FixedOpaques links := by
  constructor
  · intro d hin nm max hd
    have hm : d ∈ declarations links := declIn_mem (hin.imp id fun h => h.imp id fun h => h.imp id .inl)
    subst hd
    simp [declarations, links] at hm
  · rintro d (h | ⟨_, _, _, h, -⟩) nm len hd
    · simp [TypedefIn, links] at h
    · simp [links] at h

theorem noEmptyArrays_links : NoEmptyArrays links := by
  intro d hin ts nm len hd hs
  have hm : d ∈ declarations links := declIn_mem (hin.imp id fun h => h.imp id fun h => h.imp id .inl)
  rcases hd with rfl | rfl
  · simp [declarations, links] at hm
  · simp [declarations, links] at hm
    obtain ⟨-, rfl⟩ := hm
    obtain ⟨c, h1, h2⟩ := hs
    cases h1
    exact absurd h2 (by decide)

theorem noSelfMembers_links : NoSelfMembers links := by
  intro s ms h d hd nm len
  simp only [links, List.mem_singleton, Definition.type.injEq, TypeDef.struct.injEq] at h
  obtain ⟨rfl, rfl⟩ := h
  simp only [List.mem_cons, List.not_mem_nil, or_false] at hd
  rcases hd with rfl | rfl | rfl | rfl <;> simp

/-- Linked lists with opaque data of fixed length. -/
example : ∃ file defs, run 5 linksText {} = .printed file ∧ file.defs = some defs ∧ "Link" ∈ defs.map (·.1) ∧
    ∀ (size : Ty → Nat), ∃ K, ∀ (m : Nat) (input : Bytes),
      reserved (Xdr.program defs) size m (.named "Link") input ≤ K * (input.length / 4 + 1) := by
  have hx : ∃ file defs, run 5 linksText {} = .printed file ∧ file.defs = some defs ∧ "Link" ∈ defs.map (·.1) ∧
      file.types.map Item.inline = [[]] := by
    set_option maxRecDepth 100000 in exact ⟨_, _, rfl, rfl, List.mem_cons_self, rfl⟩
  obtain ⟨file, defs, h1, h2, h3, h4⟩ := hx
  have hsz : file.Sized := by
    intro a ha
    obtain ⟨b, hb, -⟩ := Relation.TransGen.head'_iff.1 ha
    obtain ⟨i, hi, -, hb⟩ := hb
    have : i.inline ∈ file.types.map Item.inline := List.mem_map_of_mem hi
    rw [h4, List.mem_singleton] at this
    rw [this] at hb
    cases hb
  obtain ⟨ds, hp, key⟩ := C95_fixed h1 h2 hsz
  have hl : parse linksText = .ok links := by
    set_option maxRecDepth 100000 in rfl
  cases hl.symm.trans hp
  exact ⟨file, defs, h1, h2, h3, fun size =>
    key noSelfMembers_links noEmptyArrays_links fixedOpaques_links size "Link" (by decide)⟩

end Xdr.Rpcgen
