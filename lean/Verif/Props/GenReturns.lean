import Verif.RpcgenProofs.Returns
import Verif.Props.GenPanics
/-!
# Property C89: generated decoders return

C32 is about programs in which no type contains itself except through an `Option`, a `Vec`, a map or a variant. Here
it is about generated programs that rustc accepts. The one thing asked of the interface is `NoSelfMembers`
(`Spec/SelfMembers.lean`).
-/

namespace Xdr.Rpcgen

/-- C89: with a recursion depth proportional to the length of the input, decoding returns, whatever the input. -/
theorem C89_returns {n : Nat} {s : Str} {flags : Flags} {file : RustFile} (h : run n s flags = .printed file)
    {defs : List (String × Def)} (hd : file.defs = some defs) (hsz : file.Sized) :
    ∃ ds, parse s = .ok ds ∧ (NoSelfMembers ds → ∀ ty, ∃ K, ∀ (input : Bytes) (m : Nat),
      K * (input.length / 4 + 1) ≤ m → fromBytes (Xdr.program defs) m (.named ty) input ≠ .depth) := by
  obtain ⟨ds, hp, hg⟩ := run_ok h
  refine ⟨ds, hp, fun hns ty => ?_⟩
  refine C32_linear_depth defs (.named ty) (guarded hd (variableArray_lookup hg hd) hsz (gen_boxes rfl hg hns))
    (fun x disc vars impl h => disc_Sized hd h) ?_ (by simp [Ty.Returns])
  intro d hm
  obtain ⟨-, l, hl, rfl⟩ := defs_ok hd
  rcases List.mem_append.1 hm with hm | hm
  · obtain ⟨i, -, -, hi⟩ := itemsMeaning_origin hl hm
    exact item_Returns hi
  · rw [List.mem_singleton] at hm
    subst hm
    refine ⟨?_, trivial⟩
    simp [variableArrayDef, Def.types, ReturnsAll, Ty.Returns]

/-- C89 with C88: on an input of whole words decoding returns a value or an error. -/
theorem C89_answers {n : Nat} {s : Str} {flags : Flags} {file : RustFile} (h : run n s flags = .printed file)
    {defs : List (String × Def)} (hd : file.defs = some defs) (hsz : file.Sized) :
    ∃ ds, parse s = .ok ds ∧ (NoSelfMembers ds → ∀ ty ∈ defs.map (·.1), ∃ K, ∀ (input : Bytes) (m : Nat),
      (4 ∣ input.length ∨ NoStrings ds) → K * (input.length / 4 + 1) ≤ m →
        (∃ v, fromBytes (Xdr.program defs) m (.named ty) input = .ok v) ∨
        ∃ e, fromBytes (Xdr.program defs) m (.named ty) input = .err e) := by
  obtain ⟨ds, hp, key⟩ := C89_returns h hd hsz
  refine ⟨ds, hp, fun hns ty hty => ?_⟩
  obtain ⟨K, hK⟩ := key hns ty
  refine ⟨K, fun input m h4 hm => ?_⟩
  have h1 := hK input m hm
  have h2 : ∀ p, fromBytes (Xdr.program defs) m (.named ty) input ≠ .panic p := by
    intro p
    rcases h4 with h4 | hs
    · exact C88_whole_words h hd hty m input h4 p
    · obtain ⟨ds', hp', key⟩ := C88_no_strings h hd
      cases hp.symm.trans hp'
      exact key hs ty hty m input p
  cases hr : fromBytes (Xdr.program defs) m (.named ty) input with
  | ok v => exact .inl ⟨v, rfl⟩
  | err e => exact .inr ⟨e, rfl⟩
  | panic p => exact absurd hr (h2 p)
  | depth => exact absurd hr h1

/-- C89 for the printed text of a proper interface (`C73_whole`). -/
theorem C89_whole {s : Str} {ds : List Definition} (hp : parse s = .ok ds) {flags : Flags}
    (h : Proper ds flags.config) (hns : NoSelfMembers ds) :
    ∃ out defs, (∀ n, (definedNames ds).length < n → ds.length < n → output n s flags = some out) ∧
      rustDefs out = some defs ∧ ∀ ty ∈ defs.map (·.1), ∃ K, ∀ (input : Bytes) (m : Nat),
        (4 ∣ input.length ∨ NoStrings ds) → K * (input.length / 4 + 1) ≤ m →
          (∃ v, fromBytes (Xdr.program defs) m (.named ty) input = .ok v) ∨
          ∃ e, fromBytes (Xdr.program defs) m (.named ty) input = .err e := by
  obtain ⟨file, out, defs, h1, ⟨⟨defs', hd⟩, hsz, -⟩, h3, -⟩ := C73_whole hp h
  let m := max (definedNames ds).length ds.length + 1
  obtain ⟨h4, h5⟩ := h1 m (by omega) (by omega)
  have h6 := C70_program h4 h5 hd
  rw [h3] at h6
  cases h6
  obtain ⟨ds', hp', key⟩ := C89_answers h4 hd hsz
  cases hp.symm.trans hp'
  exact ⟨out, defs, fun n hn hn' => (h1 n hn hn').2, h3, key hns⟩

theorem struct_first_diverges (env : Env) (x f : String) (fs : List (String × Ty))
    (hx : env x = some (.struct ((f, .named x) :: fs))) (n : Nat) (b : Bytes) :
    fromBytes env n (.named x) b = .depth := by
  have h : ∀ n b, deTy env n (.named x) b = .depth := by
    intro n
    induction n with
    | zero => intro b; rfl
    | succ n ih =>
      intro b
      simp only [deTy, hx, deDef, deserialize_struct]
      rw [visitEach_eq _ _ _ _ (by simp)]
      simp [readAll, M.bind_run, ih b]
  unfold fromBytes from_bytes
  rw [h]

/-- C89: what is asked is necessary. A structure that has itself as its first member, which the generator puts in a
`Box`, overflows the stack on every input. -/
theorem C89_self_member {n : Nat} {s : Str} {flags : Flags} {file : RustFile} (h : run n s flags = .printed file)
    {defs : List (String × Def)} (hd : file.defs = some defs) :
    ∃ ds, parse s = .ok ds ∧ ∀ name nm ms, .type (.struct name (.variable (.identifier name) nm :: ms)) ∈ ds →
      (∀ d, typeOf ds name ≠ some (.declaration d)) →
      ∃ ty, upper_camel_case_ident name = .ok ty ∧
        ∀ m input, fromBytes (Xdr.program defs) m (.named ty.str) input = .depth := by
  obtain ⟨ds, hp, hg⟩ := run_ok h
  refine ⟨ds, hp, fun name nm ms hin hnt => ?_⟩
  obtain ⟨item, hc, hi⟩ := gen_code_struct hg hin
  obtain ⟨hn, hf⟩ := convert_struct_ok hc
  refine ⟨item.name, hn, fun m input => ?_⟩
  obtain ⟨d, hm, hl⟩ := defs_lookup hd hi
  simp only [Item.meaning, StructItem.meaning] at hm
  split at hm
  · simp only [Option.map_eq_some_iff] at hm
    obtain ⟨fs, h1, rfl⟩ := hm
    cases hfl : item.fields with
    | nil =>
      rw [hfl] at hf
      cases hf
    | cons f rest =>
      rw [hfl] at hf h1
      cases hf with
      | cons hf1 hf2 =>
        obtain ⟨_, ts, ty, op, -, hts, hty, -, h2, h3⟩ := convertField_ok hf1
        cases hts
        cases decl_sound hty with
        | «variable» hs =>
          cases hs with
          | typedef hdrop ht _ => exact absurd ht (hnt _)
          | name hno hid =>
            rw [hn] at hid
            cases hid
            cases fieldsMeaning_each h1 with
            | cons e _ =>
              obtain ⟨-, h4, h5⟩ := e
              rw [h2, if_pos (by simp [TypeSpecifier.isName])] at h5
              rename_i p _ _
              obtain ⟨f', t⟩ := p
              have h6 : t = .named item.name.str := by
                generalize f.1 = a at h5
                cases a <;> simp only [fieldMeaning, RTy.meaning, Option.some.injEq, reduceCtorEq] at h5
                exact h5.symm
              subst h6
              exact struct_first_diverges _ _ _ _ hl m input
  · cases hm

theorem readAll_ok {ds : List (De Val)} {b : Bytes} {r : List Val × Bytes} (h : readAll ds b = .ok r) :
    ∀ d ∈ ds, ∃ b v, d b = .ok v := by
  induction ds generalizing b r with
  | nil => simp
  | cons d ds ih =>
    rw [readAll, M.bind_run] at h
    cases h1 : d b with
    | ok p =>
      rw [h1] at h
      simp only [M.bind_run] at h
      cases h2 : readAll ds p.2 with
      | ok q =>
        intro d' hd'
        rcases List.mem_cons.1 hd' with rfl | hd'
        · exact ⟨b, p, h1⟩
        · exact ih h2 d' hd'
      | err e => rw [h2] at h; cases h
      | panic e => rw [h2] at h; cases h
      | depth => rw [h2] at h; cases h
    | err e => rw [h1] at h; cases h
    | panic e => rw [h1] at h; cases h
    | depth => rw [h1] at h; cases h

theorem struct_self_refuses (env : Env) (x : String) (fs : List (String × Ty)) (hx : env x = some (.struct fs))
    (hm : ∃ f, (f, Ty.named x) ∈ fs) (n : Nat) (b : Bytes) (v : Val) : fromBytes env n (.named x) b ≠ .ok v := by
  have h : ∀ n b p, deTy env n (.named x) b ≠ .ok p := by
    intro n
    induction n with
    | zero => intro b p h; cases h
    | succ n ih =>
      intro b p h
      simp only [deTy, hx, deDef, deserialize_struct] at h
      rw [visitEach_eq _ _ _ _ (by simp), M.bind_run] at h
      split at h
      · rename_i q _ hq
        obtain ⟨f, hf⟩ := hm
        obtain ⟨b', v', h'⟩ := readAll_ok hq _ (List.mem_map.2 ⟨_, hf, rfl⟩)
        exact ih _ _ h'
      all_goals cases h
  intro hv
  exact h _ _ _ (from_bytes_eq_ok hv)

/-- C89: a structure that has itself as any of its members, which compiles: no input is ever accepted. -/
theorem C89_self_anywhere {n : Nat} {s : Str} {flags : Flags} {file : RustFile} (h : run n s flags = .printed file)
    {defs : List (String × Def)} (hd : file.defs = some defs) :
    ∃ ds, parse s = .ok ds ∧ ∀ name nm ms, .type (.struct name ms) ∈ ds → .variable (.identifier name) nm ∈ ms →
      (∀ d, typeOf ds name ≠ some (.declaration d)) →
      ∃ ty, upper_camel_case_ident name = .ok ty ∧
        ∀ m input v, fromBytes (Xdr.program defs) m (.named ty.str) input ≠ .ok v := by
  obtain ⟨ds, hp, hg⟩ := run_ok h
  refine ⟨ds, hp, fun name nm ms hin hmem hnt => ?_⟩
  obtain ⟨item, hc, hi⟩ := gen_code_struct hg hin
  obtain ⟨hn, hf⟩ := convert_struct_ok hc
  refine ⟨item.name, hn, fun m input v => ?_⟩
  obtain ⟨d, hm, hl⟩ := defs_lookup hd hi
  simp only [Item.meaning, StructItem.meaning] at hm
  split at hm
  · simp only [Option.map_eq_some_iff] at hm
    obtain ⟨fs, h1, rfl⟩ := hm
    refine struct_self_refuses _ _ fs hl ?_ m input v
    obtain ⟨f, hfm, hf1⟩ := forall₂_mem_left hf hmem
    obtain ⟨p, hpm, -, -, h5⟩ := forall₂_mem_left (fieldsMeaning_each h1) hfm
    obtain ⟨_, ts, ty, op, -, hts, hty, -, h2, h3⟩ := convertField_ok hf1
    cases hts
    cases decl_sound hty with
    | «variable» hs =>
      cases hs with
      | typedef hdrop ht _ => exact absurd ht (hnt _)
      | name hno hid =>
        rw [hn] at hid
        cases hid
        rw [h2, if_pos (by simp [TypeSpecifier.isName])] at h5
        obtain ⟨f', t⟩ := p
        have h6 : t = .named item.name.str := by
          generalize f.1 = a at h5
          cases a <;> simp only [fieldMeaning, RTy.meaning, Option.some.injEq, reduceCtorEq] at h5
          exact h5.symm
        subst h6
        exact ⟨f', hpm⟩
  · cases hm

theorem Members.value {ds : List Definition} {dflt : Bool} {ms : List Declaration} {xs : List Rfc.XVal}
    (h : Members ds dflt ms xs) {d : Declaration} (hd : d ∈ ms) : ∃ x ∈ xs, Declared ds dflt d x := by
  induction ms generalizing xs with
  | nil => cases hd
  | cons d' ms ih =>
    cases h with
    | cons h1 h2 =>
      rcases List.mem_cons.1 hd with rfl | hd
      · exact ⟨_, List.mem_cons_self, h1⟩
      · obtain ⟨x, hx, hr⟩ := ih h2 hd
        exact ⟨x, List.mem_cons_of_mem _ hx, hr⟩

/-- Nor does such a structure have values in the interface: no encoding of one is refused. -/
theorem C89_no_values {ds : List Definition} {name nm : Str} {ms : List Declaration}
    (ht : typeOf ds name = some (.struct name ms)) (hm : .variable (.identifier name) nm ∈ ms) (dflt : Bool)
    (x : Rfc.XVal) : ¬ Defined ds dflt (.struct name ms) x := by
  suffices h : ∀ k (x : Rfc.XVal), sizeOf x ≤ k → ¬ Defined ds dflt (.struct name ms) x from h _ x (Nat.le_refl _)
  intro k
  induction k with
  | zero =>
    intro x hk hx
    cases hx
    simp at hk
  | succ k ih =>
    intro x hk hx
    cases hx with
    | @struct _ _ xs h =>
      obtain ⟨x', hx', hd⟩ := h.value hm
      cases hd with
      | «variable» hty =>
        cases hty with
        | name ht' hx'' =>
          rw [ht] at ht'
          cases ht'
          refine ih x' ?_ hx''
          have := List.sizeOf_lt_of_mem hx'
          simp only [Rfc.XVal.struct.sizeOf_spec] at hk
          omega

/-! ## Examples -/

theorem noSelfMembers_catalogue : NoSelfMembers catalogue := by
  intro s ms h d hd nm len
  simp only [catalogue, List.mem_cons, reduceCtorEq, Definition.type.injEq, TypeDef.struct.injEq, List.not_mem_nil,
    or_false, false_or] at h
  obtain ⟨rfl, rfl⟩ := h
  simp only [catalogueEntry, List.mem_cons, List.not_mem_nil, or_false] at hd
  rcases hd with rfl | rfl | rfl | rfl | rfl | rfl | rfl | rfl | rfl <;> simp

/-- The catalogue, whose entries are lists: with any flags, decoders of what is printed for it answer on every input
of whole words. -/
example (flags : Flags) : ∃ out defs, (∀ n, 6 < n → output n catalogueText flags = some out) ∧
    rustDefs out = some defs ∧ ∀ ty ∈ defs.map (·.1), ∃ K, ∀ (input : Bytes) (m : Nat),
      4 ∣ input.length → K * (input.length / 4 + 1) ≤ m →
        (∃ v, fromBytes (Xdr.program defs) m (.named ty) input = .ok v) ∨
        ∃ e, fromBytes (Xdr.program defs) m (.named ty) input = .err e := by
  obtain ⟨out, defs, h1, h2, h3⟩ := C89_whole parse_catalogue (proper_catalogue flags) noSelfMembers_catalogue
  refine ⟨out, defs, fun n hn => h1 n ?_ ?_, h2, fun ty hty => ?_⟩
  · exact Nat.lt_of_le_of_lt (by decide) hn
  · exact Nat.lt_of_le_of_lt (by decide) hn
  · obtain ⟨K, hK⟩ := h3 ty hty
    exact ⟨K, fun input m h4 hm => hK input m (.inl h4) hm⟩

def loopText : Str := c!"struct loop { loop again; int x; };"

/-- rustc accepts what is printed for a structure with itself as its first member, and its decoder never returns. -/
example : ∃ file defs, run 5 loopText {} = .printed file ∧ file.defs = some defs ∧ file.Compiles ∧
    ∀ m input, fromBytes (Xdr.program defs) m (.named "Loop") input = .depth := by
  have hx : ∃ file defs, run 5 loopText {} = .printed file ∧ file.defs = some defs ∧
      (∀ i ∈ file.types, i.inline = []) ∧ file.apart = true := by
    set_option maxRecDepth 100000 in exact ⟨_, _, rfl, rfl, by decide +kernel, by decide +kernel⟩
  obtain ⟨file, defs, h1, h2, h3, h4⟩ := hx
  obtain ⟨ds, hp, key⟩ := C89_self_member h1 h2
  have hp' : parse loopText = .ok [.type (.struct c!"loop" [.variable (.identifier c!"loop") c!"again",
      .variable (.int true) c!"x"])] := by
    set_option maxRecDepth 100000 in rfl
  cases hp'.symm.trans hp
  obtain ⟨ty, hty, hk⟩ := key c!"loop" c!"again" _ List.mem_cons_self (by intro d h; cases h)
  cases GR.ok.inj hty
  refine ⟨file, defs, h1, h2, ⟨⟨defs, h2⟩, ?_, h4⟩, hk⟩
  intro a h
  obtain ⟨y, ⟨i, hi, -, hb⟩, -⟩ := Relation.TransGen.head'_iff.1 h
  rw [h3 i hi] at hb
  cases hb

/-- With itself as the second member: nothing is read, and there is nothing to read. -/
example : ∃ file defs ds, run 5 c!"struct chain { int x; chain next; };" { use_union := true } = .printed file ∧
    file.defs = some defs ∧ parse c!"struct chain { int x; chain next; };" = .ok ds ∧
    (∀ m input v, fromBytes (Xdr.program defs) m (.named "Chain") input ≠ .ok v) ∧
    ∃ t, typeOf ds c!"chain" = some t ∧ ∀ dflt x, ¬ Defined ds dflt t x := by
  have hx : ∃ file defs, run 5 c!"struct chain { int x; chain next; };" { use_union := true } = .printed file ∧
      file.defs = some defs := by
    set_option maxRecDepth 100000 in exact ⟨_, _, rfl, rfl⟩
  obtain ⟨file, defs, h1, h2⟩ := hx
  obtain ⟨ds, hp, key⟩ := C89_self_anywhere h1 h2
  have hp' : parse c!"struct chain { int x; chain next; };" = .ok [.type (.struct c!"chain"
      [.variable (.int true) c!"x", .variable (.identifier c!"chain") c!"next"])] := by
    set_option maxRecDepth 100000 in rfl
  cases hp'.symm.trans hp
  obtain ⟨ty, hty, hk⟩ := key c!"chain" c!"next" _ List.mem_cons_self (by simp) (by intro d h; cases h)
  cases GR.ok.inj hty
  exact ⟨file, defs, _, h1, h2, hp', hk, _, rfl, fun dflt x => C89_no_values (nm := c!"next") rfl (by simp) dflt x⟩

end Xdr.Rpcgen
