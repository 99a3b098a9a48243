import Verif.RpcgenProofs.NeverMisreads
import Verif.Props.AcceptedBytes
import Verif.Props.Versions
/-!
# Property C87: a program does not misread the messages of a later version of its interface

C83 says that programs of two versions understand each other on the values both versions have. This is about the
rest: the messages only the later version has.
-/

namespace Xdr.Rpcgen

open Rfc (XVal)

/-- Given the message `bs`, whatever follows it, the program reads just that message or nothing: it stops where the
message ends, and what it has read it writes as the same message. -/
def ReadsRight (env : Env) (ty : String) (bs : Bytes) : Prop :=
  ∀ n v rest rest', deTy env n (.named ty) (bs ++ rest) = .ok (v, rest') →
    rest' = rest ∧ toBytes env (.named ty) v = .ok bs

/-- C87, from the two interfaces alone: bytes the earlier decoder takes (C86) at the front of a message of the later
version are the whole message, for the value that was sent. -/
theorem C87_values {ds ds' : List Definition} {cfg : Config} (hv : Versions true ds ds') (hc : Careful ds cfg)
    (hd : Distinct ds') {name : Str} {t t' : TypeDef} (ht : typeOf ds name = some t) (ht' : typeOf ds' name = some t')
    {x x' : XVal} {bs bs' rest rest' : Bytes} (h : DefinedF ds cfg t x bs) (h' : Defined ds' true t' x')
    (he : Rfc.encode x' = some bs') (heq : bs ++ rest = bs' ++ rest') :
    bs = bs' ∧ rest = rest' ∧ bare x = bare x' := by
  obtain ⟨t'', h1, h2⟩ := hv _ _ ht
  rw [ht'] at h1
  cases h1
  obtain ⟨rfl, -, h3⟩ := DefinedF.same hv hc hd (typeOf_mem ht).1 (typeOf_mem ht').1 h h2 h' he heq
  exact ⟨rfl, List.append_cancel_left heq, h3⟩

/-- C87. A run of the tool on an interface in the fragment of C86 that leaves no room for other messages
(`Careful`), and any later version of the interface: from no message of the later version, of the same
type, does the program read anything but that message. What is missing: interfaces and flags that are not
`Careful`. -/
theorem C87_messages_partial {n : Nat} {s : Str} {flags : Flags} {file : RustFile} (h : run n s flags = .printed file)
    {defs : List (String × Def)} (hd : file.defs = some defs) :
    ∃ ds, parse s = .ok ds ∧ (Supported ds flags.config → NamesDefined ds →
      DefaultsRead ds flags.config → Careful ds flags.config →
      ∀ ds', Versions true ds ds' → Distinct ds' →
      ∀ t t' name, .type t ∈ ds → t.name = some name → (∀ d, t ≠ .declaration d) →
        (∀ e as, t = .enum e as → flags.use_std_trait = true → Positional ds as) →
        typeOf ds' name = some t' →
        ∃ ty, upper_camel_case_ident name = .ok ty ∧
          ∀ x bs, Defined ds' true t' x → Rfc.encode x = some bs → ReadsRight (Xdr.program defs) ty.str bs) := by
  obtain ⟨ds, hp, hall⟩ := C86_bytes h hd
  refine ⟨ds, hp, fun hok hdfd hdf hcare ds' hver hdis t t' name ht hname hnd hpos ht' => ?_⟩
  obtain ⟨ty, hty, htake⟩ := hall hok hdfd hdf t name ht hname hnd hpos
  refine ⟨ty, hty, fun x' bs' hx' he' m v rest rest' hread => ?_⟩
  obtain ⟨b, hb, hf⟩ := (C84_front _ _ _ _ _).1 ⟨m, hread⟩
  obtain ⟨k, hk⟩ := (C84_accepted _ _ _ _).2 hf
  obtain ⟨x, hx⟩ := (htake.accepted b).1 ⟨k, v, hk⟩
  have hto := typeOf_of_mem hok.unambiguous ht hname
  obtain ⟨t'', h1, h2⟩ := hver _ _ hto
  rw [ht'] at h1
  cases h1
  obtain ⟨rfl, h3, -⟩ := DefinedF.same hver hcare hdis ht (typeOf_mem ht').1 hx h2 hx' he' hb.symm
  refine ⟨(List.append_cancel_left hb).symm, ?_⟩
  obtain ⟨k', v', h4, h5⟩ := (htake.meaning b b).2 ⟨x, hx, h3⟩
  obtain ⟨-, rfl⟩ := C84_unambiguous _ _ v v' b [] hf (by
    rw [List.append_nil]
    exact (C84_accepted _ _ _ _).1 ⟨k', h4⟩)
  exact h5

/-- With `--use-union`, and `--use-indexer` only along with `--use-std-trait`, every interface is careful. -/
theorem careful_of_flags (ds : List Definition) {flags : Flags} (hu : flags.use_union = true)
    (hi : flags.use_indexer = true → flags.use_std_trait = true) : Careful ds flags.config where
  enums := by
    cases h1 : flags.use_indexer with
    | false => simp [Flags.config, h1]
    | true => simp [Flags.config, hi h1]
  gaps h := by simp [Config.leeway, Config.union_complement_index, Flags.config, hu] at h
  labels h := by simp [Config.leeway, Flags.config, hu] at h

/-- C87 for the printed text of a proper interface with `--use-union`, and without `--use-indexer` or with
`--use-std-trait`. -/
theorem C87_whole {s : Str} {ds : List Definition} (hp : parse s = .ok ds) {flags : Flags}
    (h : Proper ds flags.config) (hu : flags.use_union = true)
    (hi : flags.use_indexer = true → flags.use_std_trait = true) :
    ∃ out defs, (∀ n, (definedNames ds).length < n → ds.length < n → output n s flags = some out) ∧
      rustDefs out = some defs ∧
      ∀ ds', Versions true ds ds' → Distinct ds' →
      ∀ t t' name, .type t ∈ ds → t.name = some name → (∀ d, t ≠ .declaration d) →
        (∀ e as, t = .enum e as → flags.use_std_trait = true → Positional ds as) →
        typeOf ds' name = some t' →
        ∃ ty, upper_camel_case_ident name = .ok ty ∧
          ∀ x bs, Defined ds' true t' x → Rfc.encode x = some bs → ReadsRight (Xdr.program defs) ty.str bs := by
  obtain ⟨file, out, defs, h1, ⟨⟨defs', hd⟩, -⟩, h3, -⟩ := C73_whole hp h
  let m := max (definedNames ds).length ds.length + 1
  obtain ⟨h4, h5⟩ := h1 m (by omega) (by omega)
  have h6 := C70_program h4 h5 hd
  rw [h3] at h6
  cases h6
  refine ⟨out, defs, fun n hn hn' => (h1 n hn hn').2, h3, ?_⟩
  obtain ⟨ds', hp', hall⟩ := C87_messages_partial h4 hd
  cases hp.symm.trans hp'
  exact hall h.supported h.clean.defined (fun _ _ _ _ _ => .inl hu) (careful_of_flags ds hu hi)

/-! ## Examples -/

theorem versions_badges_all : Versions true badges laterBadges := by
  intro name t ht
  obtain ⟨t', h1, h2⟩ := versions_badges name t ht
  refine ⟨t', h1, ?_⟩
  have hm := (typeOf_mem ht).1
  cases h2 with
  | typedef h => exact .typedef h
  | enum h => exact .enum h
  | struct h => exact .struct h
  | union ha hb hc _ =>
    refine .union ha hb hc fun _ d hd => ?_
    simp only [badges, List.mem_cons, reduceCtorEq, Definition.type.injEq, TypeDef.union.injEq, List.not_mem_nil,
      or_false, false_or] at hm
    obtain ⟨rfl, rfl⟩ := hm
    cases hd

theorem names_badges : NamesDefined badges := by
  intro d name hd he
  rcases hd with h | ⟨s, ms, h, hm⟩ | ⟨u, b, v, h, hm⟩ | ⟨u, b, h, hm⟩ | ⟨u, b, h, hm⟩
  · simp [badges, TypedefIn] at h
  · simp [badges] at h
    obtain ⟨rfl, rfl⟩ := h
    simp at hm
    subst hm
    cases he
  · simp [badges] at h
    obtain ⟨rfl, rfl⟩ := h
    simp [badges_labels] at hm
    rcases hm with ⟨-, rfl⟩ | ⟨-, rfl⟩
    · cases he
      simp [typeOf, badges, TypeDef.name]
    · cases he
  · simp [badges] at h
    obtain ⟨rfl, rfl⟩ := h
    cases hm
  · simp [badges] at h
    obtain ⟨rfl, rfl⟩ := h
    cases hm
    cases he
    simp [typeOf, badges, TypeDef.name]

theorem distinct_laterBadges : Distinct laterBadges where
  unambiguous := (supported_laterBadges {}).unambiguous
  unions u b h := by
    obtain ⟨c, nm, ks, h1, h2, -⟩ := (supported_laterBadges {}).unions u b h
    exact ⟨c, nm, ks, h1, h2⟩

/-- A text of eight bytes, which only the second version allows: the program of the first version reads just that, or
nothing. -/
example : ∃ file defs, run 9 badgesText { use_union := true } = .printed file ∧ file.defs = some defs ∧
    ReadsRight (Xdr.program defs) "Label" [0, 0, 0, 8, 65, 65, 65, 65, 65, 65, 65, 65] := by
  obtain ⟨file, defs, hr, hd⟩ := run_accepted (n := 9) (flags := { use_union := true }) parse_badges
    (by decide +kernel)
  refine ⟨file, defs, hr, hd, ?_⟩
  obtain ⟨ds, hp, key⟩ := C87_messages_partial hr hd
  rw [parse_badges] at hp
  cases hp
  have hmax : ∀ (v : Value) (k : Int), some (.identifier c!"LIMIT") = some v → Stands laterBadges v k →
      ((utf8Bytes ['A', 'A', 'A', 'A', 'A', 'A', 'A', 'A']).length : Int) ≤ k := by
    intro v k hv hk
    cases hv
    have := stands_unique hk
      (⟨.decimal c!"8", .name rfl (.literal _), rfl⟩ : Stands laterBadges (.identifier c!"LIMIT") 8)
    subst this
    decide
  obtain ⟨ty, hty, h⟩ := key (supported_badges _ rfl) names_badges (fun _ _ _ _ _ => .inl rfl) (careful_of_flags _ rfl (by simp)) laterBadges versions_badges_all distinct_laterBadges
    (.struct c!"label" [.string c!"text" (some (.identifier c!"MAX"))])
    (.struct c!"label" [.string c!"value" (some (.identifier c!"LIMIT"))]) c!"label" (by simp [badges]) rfl (by simp)
    (by simp) rfl
  cases hty
  exact h (.struct [.string (utf8Bytes ['A', 'A', 'A', 'A', 'A', 'A', 'A', 'A'])]) _
    (.struct (.cons (.string (by decide) hmax) .nil)) (by rfl)

/-! ## Where it fails -/

def memberMissing : List Definition :=
  [.type (.enum c!"e" [⟨c!"A", .constant (.decimal c!"1")⟩, ⟨c!"B", .constant (.decimal c!"2")⟩]),
   .type (.struct c!"s" [.variable (.identifier c!"e") c!"x"])]

def memberAdded : List Definition :=
  [.type (.enum c!"e" [⟨c!"A", .constant (.decimal c!"1")⟩, ⟨c!"B", .constant (.decimal c!"2")⟩,
     ⟨c!"C", .constant (.decimal c!"3")⟩]),
   .type (.struct c!"s" [.variable (.identifier c!"e") c!"x"])]

theorem sameNumber_literal {ds ds' : List Definition} (c : Constant) :
    SameNumber ds ds' (.constant c) (.constant c) := by
  rintro k ⟨c', h, rfl⟩
  cases h
  exact ⟨_, .literal _, rfl⟩

theorem versions_members : Versions true memberMissing memberAdded := by
  intro name t ht
  obtain ⟨hm, hn⟩ := typeOf_mem ht
  simp only [memberMissing, List.mem_cons, Definition.type.injEq, List.not_mem_nil, or_false] at hm
  rcases hm with rfl | rfl
  · cases hn
    refine ⟨_, rfl, .enum fun a ha => ?_⟩
    simp only [List.mem_cons, List.not_mem_nil, or_false] at ha
    rcases ha with rfl | rfl
    · exact ⟨⟨c!"A", .constant (.decimal c!"1")⟩, by simp, sameNumber_literal _⟩
    · exact ⟨⟨c!"B", .constant (.decimal c!"2")⟩, by simp, sameNumber_literal _⟩
  · cases hn
    exact ⟨_, rfl, .struct (.cons .variable .nil)⟩

/-- C87 fails with `--use-indexer`: the number of a new member is read as the first member. -/
theorem C87_enum_violated : ∃ file defs t x,
    run 9 c!"enum e { A = 1, B = 2 }; struct s { e x; };" { use_indexer := true } = .printed file ∧
    file.defs = some defs ∧ parse c!"enum e { A = 1, B = 2 }; struct s { e x; };" = .ok memberMissing ∧
    parse c!"enum e { A = 1, B = 2, C = 3 }; struct s { e x; };" = .ok memberAdded ∧
    Versions true memberMissing memberAdded ∧ typeOf memberAdded c!"s" = some t ∧
    Defined memberAdded true t x ∧ Rfc.encode x = some [0, 0, 0, 3] ∧
    ∃ v, (∀ n, fromBytes (Xdr.program defs) (n + 5) (.named "S") [0, 0, 0, 3] = .ok v) ∧
      toBytes (Xdr.program defs) (.named "S") v = .ok [0, 0, 0, 1] := by
  refine ⟨_, _, _, .struct [.enum 3], rfl, rfl, rfl, rfl, versions_members, rfl, ?_, rfl, .seq [.variant 0 []],
    fun _ => rfl, rfl⟩
  exact .struct (.cons (.variable (.name rfl (.enum (a := ⟨c!"C", .constant (.decimal c!"3")⟩) (by simp)
    ⟨_, .literal _, rfl⟩))) .nil)

def twoArms : UnionBody := ⟨.variable (.int true) c!"k",
  [⟨[.identifier c!"ZERO"], .void⟩, ⟨[.identifier c!"TWO"], .void⟩], none⟩

def threeArms : UnionBody := ⟨.variable (.int true) c!"k",
  [⟨[.identifier c!"ZERO"], .void⟩, ⟨[.identifier c!"TWO"], .void⟩,
   ⟨[.identifier c!"ONE"], .variable (.int true) c!"x"⟩], none⟩

def armMissing : List Definition :=
  [.constant ⟨c!"ZERO", .constant (.decimal c!"0")⟩, .constant ⟨c!"TWO", .constant (.decimal c!"2")⟩,
   .type (.union c!"u" twoArms)]

def armAdded : List Definition :=
  [.constant ⟨c!"ZERO", .constant (.decimal c!"0")⟩, .constant ⟨c!"TWO", .constant (.decimal c!"2")⟩,
   .constant ⟨c!"ONE", .constant (.decimal c!"1")⟩, .type (.union c!"u" threeArms)]

theorem threeArms_labels : threeArms.labels = [(.identifier c!"ZERO", .void), (.identifier c!"TWO", .void),
  (.identifier c!"ONE", .variable (.int true) c!"x")] := rfl

theorem versions_arms : Versions true armMissing armAdded := by
  intro name t ht
  obtain ⟨hm, hn⟩ := typeOf_mem ht
  simp only [armMissing, List.mem_cons, Definition.type.injEq, List.not_mem_nil, or_false, reduceCtorEq,
    false_or] at hm
  subst hm
  cases hn
  have e : twoArms.labels = [(.identifier c!"ZERO", .void), (.identifier c!"TWO", .void)] := rfl
  refine ⟨.union c!"u" threeArms, rfl, .union rfl rfl (fun l hl => ?_) (fun _ d hd => by cases hd)⟩
  rw [e] at hl
  simp only [List.mem_cons, List.not_mem_nil, or_false] at hl
  rcases hl with rfl | rfl
  · refine ⟨(.identifier c!"ZERO", .void), by simp [threeArms_labels], fun k hk => ?_, .void⟩
    cases hk with
    | int hk =>
      cases stands_unique hk (⟨.decimal c!"0", .name rfl (.literal _), rfl⟩ : Stands armMissing (.identifier c!"ZERO") 0)
      exact .int ⟨.decimal c!"0", .name rfl (.literal _), rfl⟩
  · refine ⟨(.identifier c!"TWO", .void), by simp [threeArms_labels], fun k hk => ?_, .void⟩
    cases hk with
    | int hk =>
      cases stands_unique hk (⟨.decimal c!"2", .name rfl (.literal _), rfl⟩ : Stands armMissing (.identifier c!"TWO") 2)
      exact .int ⟨.decimal c!"2", .name rfl (.literal _), rfl⟩

/-- C87 fails without flags: a new label between others is read as an arm without content, and its content as what
follows. -/
theorem C87_union_violated : ∃ file defs t x,
    run 9 c!"const ZERO = 0; const TWO = 2; union u switch (int k) { case ZERO: void; case TWO: void; };" {} =
      .printed file ∧
    file.defs = some defs ∧
    parse c!"const ZERO = 0; const TWO = 2; union u switch (int k) { case ZERO: void; case TWO: void; };" =
      .ok armMissing ∧
    parse c!"const ZERO = 0; const TWO = 2; const ONE = 1;
union u switch (int k) { case ZERO: void; case TWO: void; case ONE: int x; };" = .ok armAdded ∧
    Versions true armMissing armAdded ∧ typeOf armAdded c!"u" = some t ∧
    Defined armAdded true t x ∧ Rfc.encode x = some [0, 0, 0, 1, 0, 0, 0, 7] ∧
    ∃ v, (∀ n rest, deTy (Xdr.program defs) (n + 5) (.named "U") ([0, 0, 0, 1, 0, 0, 0, 7] ++ rest) =
        .ok (v, [0, 0, 0, 7] ++ rest)) ∧
      toBytes (Xdr.program defs) (.named "U") v = .ok [0, 0, 0, 1] := by
  refine ⟨_, _, .union c!"u" threeArms, .union (.int 1) (.int 7), rfl, rfl, rfl, ?_, versions_arms, rfl, ?_, rfl, ?_⟩
  · set_option maxRecDepth 100000 in rfl
  · exact .arm (v := .identifier c!"ONE") (d := .variable (.int true) c!"x") rfl (by simp [threeArms_labels])
      (.int ⟨.decimal c!"1", .name rfl (.literal _), rfl⟩) (.int (by decide) (by decide)) rfl
      (.variable (.int (by decide) (by decide)))
  · exact ⟨.variant 1 [], fun _ _ => rfl, rfl⟩

end Xdr.Rpcgen
