import Verif.RpcgenProofs.Versions
import Verif.Props.EndToEnd
/-!
# Property C83: programs generated from versions of an interface, with any flags, understand each other
-/

namespace Xdr.Rpcgen

open Rfc (XVal)

/-- Two programs understand each other on `x`: both have a value for it, which they write as the same bytes, and
each reads its own from these. -/
def Understand (env : Env) (ty : String) (env' : Env) (ty' : String) (x : XVal) : Prop :=
  ∃ bs v v', Rfc.encode x = some bs ∧
    toBytes env (.named ty) v = .ok bs ∧ toBytes env' (.named ty') v' = .ok bs ∧
    (∀ n, v.depth < n → fromBytes env n (.named ty) bs = .ok v) ∧
    ∀ n, v'.depth < n → fromBytes env' n (.named ty') bs = .ok v'

theorem Conforms.understand {env env' : Env} {ty ty' : String} {x : XVal} (h : Conforms env ty x)
    (h' : Conforms env' ty' x) : Understand env ty env' ty' x := by
  obtain ⟨bs, v, h1, h2, h3⟩ := h
  obtain ⟨bs', v', h1', h2', h3'⟩ := h'
  rw [h1] at h1'
  cases h1'
  exact ⟨bs, v, v', h1, h2, h2', h3, h3'⟩

/-- C83. The values of an interface are values of its later versions. -/
theorem C83_values {dflt : Bool} {ds ds' : List Definition} (h : Versions dflt ds ds') {name : Str} {t : TypeDef}
    (ht : typeOf ds name = some t) {x : XVal} (hx : Defined ds dflt t x) :
    ∃ t', typeOf ds' name = some t' ∧ Defined ds' dflt t' x := by
  obtain ⟨t', h1, h2⟩ := h _ _ ht
  exact ⟨t', h1, Defined.later h hx h2⟩

theorem DefLater.name_kind {dflt : Bool} {ds ds' : List Definition} {t t' : TypeDef} (h : DefLater dflt ds ds' t t')
    (hnd : ∀ d, t ≠ .declaration d) : ∀ d, t' ≠ .declaration d := by
  cases h with
  | typedef => exact absurd rfl (hnd _)
  | _ => simp

/-- C83. Two runs of the tool, on an interface and on a later version of it, each with its own flags, both in the
fragment of C53: on every value of an enum, structure or union of the earlier interface, the two programs
understand each other. What is missing: what C53 excludes. -/
theorem C83_versions_partial {n n' : Nat} {s s' : Str} {flags flags' : Flags} {file file' : RustFile}
    (h : run n s flags = .printed file) (h' : run n' s' flags' = .printed file')
    {defs defs' : List (String × Def)} (hd : file.defs = some defs) (hd' : file'.defs = some defs') :
    ∃ ds ds', parse s = .ok ds ∧ parse s' = .ok ds' ∧ (Supported ds flags.config → Supported ds' flags'.config →
      ∀ dflt, Versions dflt ds ds' → (dflt = true → flags.use_union = true ∧ flags'.use_union = true) →
      ∀ t name x, .type t ∈ ds → t.name = some name → (∀ d, t ≠ .declaration d) →
        (∀ e as, t = .enum e as → flags.use_std_trait = true → Positional ds as) →
        (∀ e as, .type (.enum e as) ∈ ds' → e = name → flags'.use_std_trait = true → Positional ds' as) →
        Defined ds dflt t x →
        ∃ ty, upper_camel_case_ident name = .ok ty ∧
          Understand (Xdr.program defs) ty.str (Xdr.program defs') ty.str x) := by
  obtain ⟨ds, hp, hg⟩ := run_ok h
  obtain ⟨ds', hp', hg'⟩ := run_ok h'
  refine ⟨ds, ds', hp, hp', fun hok hok' dflt hver hdf t name x ht hname hnd hpos hpos' hx => ?_⟩
  have hto := typeOf_of_mem hok.unambiguous ht hname
  obtain ⟨t', ht', hlater⟩ := hver _ _ hto
  have hx' := Defined.later hver hx hlater
  obtain ⟨hm', hname'⟩ := typeOf_mem ht'
  obtain ⟨ty, hty, hc⟩ := conforms_of_gen (wellFormed_parse hp) hg hd hok dflt t name x ht hname hnd hpos
    (fun h => (hdf h).1) hx
  obtain ⟨ty', hty', hc'⟩ := conforms_of_gen (wellFormed_parse hp') hg' hd' hok' dflt t' name x hm' hname'
    (hlater.name_kind hnd) (fun e as he hf => hpos' e as (he ▸ hm') (by subst he; cases hname'; rfl) hf)
    (fun h => (hdf h).2) hx'
  rw [hty] at hty'
  cases hty'
  exact ⟨ty, hty, hc.understand hc'⟩

theorem DeclLater.refl (ds : List Definition) : (d : Declaration) → DeclLater ds ds d d
  | .variable _ _ => .variable
  | .fixedArray _ _ _ => .fixedArray fun _ h => h
  | .variableArray _ _ m => .variableArray (.refl ds m)
  | .opaqueFixedArray _ _ => .opaqueFixed fun _ h => h
  | .opaqueVariableArray _ m => .opaqueVar (.refl ds m)
  | .string _ m => .string (.refl ds m)
  | .optionVariable _ _ => .option
  | .void => .void

/-- A supported interface is a version of itself. -/
theorem Versions.refl {ds : List Definition} {cfg : Config} (hok : Supported ds cfg) (dflt : Bool) :
    Versions dflt ds ds := by
  intro name t ht
  refine ⟨t, ht, ?_⟩
  cases t with
  | declaration d => exact .typedef (.refl ds d)
  | enum e as => exact .enum fun a ha => ⟨a, ha, fun _ h => h⟩
  | struct s ms => exact .struct (List.forall₂_same.2 fun d _ => .refl ds d)
  | union u b =>
    obtain ⟨cond, nm, ks, hc, -⟩ := hok.unions u b (typeOf_mem ht).1
    exact .union hc hc (fun l hl => ⟨l, hl, fun _ h => h, .refl ds _⟩)
      fun _ d hd => ⟨d, hd, .refl ds d, fun l hl k hk => ⟨l, hl, hk⟩⟩

/-- C83. The same interface with different flags. -/
theorem C83_flags_partial {n n' : Nat} {s : Str} {flags flags' : Flags} {file file' : RustFile}
    (h : run n s flags = .printed file) (h' : run n' s flags' = .printed file')
    {defs defs' : List (String × Def)} (hd : file.defs = some defs) (hd' : file'.defs = some defs') :
    ∃ ds, parse s = .ok ds ∧ (Supported ds flags.config → Supported ds flags'.config →
      ∀ dflt, (dflt = true → flags.use_union = true ∧ flags'.use_union = true) →
      ∀ t name x, .type t ∈ ds → t.name = some name → (∀ d, t ≠ .declaration d) →
        (∀ e as, t = .enum e as → flags.use_std_trait = true ∨ flags'.use_std_trait = true → Positional ds as) →
        Defined ds dflt t x →
        ∃ ty, upper_camel_case_ident name = .ok ty ∧
          Understand (Xdr.program defs) ty.str (Xdr.program defs') ty.str x) := by
  obtain ⟨ds, ds', hp, hp', key⟩ := C83_versions_partial h h' hd hd'
  rw [hp] at hp'
  cases hp'
  refine ⟨ds, hp, fun hok hok' dflt hdf t name x ht hname hnd hpos hx => ?_⟩
  refine key hok hok' dflt (.refl hok dflt) hdf t name x ht hname hnd
    (fun e as he hf => hpos e as he (.inl hf)) (fun e as hm he hf => hpos e as ?_ (.inr hf)) hx
  have h1 := typeOf_of_mem hok.unambiguous ht hname
  have h2 := typeOf_of_mem hok.unambiguous (t := .enum e as) hm (name := name) (by rw [← he]; rfl)
  rw [h1] at h2
  exact Option.some.inj h2

/-! ## Two versions -/

def badgesText : Str := c!"const MAX = 4; enum colour { RED = 1, BLUE = 2 }; struct label { string text<MAX>; };
union shape switch (colour c) { case RED: label n; case BLUE: void; };"

def laterBadgesText : Str := c!"const LIMIT = 8; enum colour { GREEN = 0, BLUE = 2, RED = 1 };
struct label { string value<LIMIT>; }; struct extra { colour c; };
union shape switch (colour kind) { case GREEN: extra e; case RED: label n; case BLUE: void; };"

def badgeColours : List Assign := [⟨c!"RED", .constant (.decimal c!"1")⟩, ⟨c!"BLUE", .constant (.decimal c!"2")⟩]

def laterBadgeColours : List Assign := [⟨c!"GREEN", .constant (.decimal c!"0")⟩, ⟨c!"BLUE", .constant (.decimal c!"2")⟩,
  ⟨c!"RED", .constant (.decimal c!"1")⟩]

def badgeUnion : UnionBody := ⟨.variable (.identifier c!"colour") c!"c",
  [⟨[.identifier c!"RED"], .variable (.identifier c!"label") c!"n"⟩, ⟨[.identifier c!"BLUE"], .void⟩], none⟩

def laterBadgeUnion : UnionBody := ⟨.variable (.identifier c!"colour") c!"kind",
  [⟨[.identifier c!"GREEN"], .variable (.identifier c!"extra") c!"e"⟩,
   ⟨[.identifier c!"RED"], .variable (.identifier c!"label") c!"n"⟩, ⟨[.identifier c!"BLUE"], .void⟩], none⟩

def badges : List Definition :=
  [.constant ⟨c!"MAX", .constant (.decimal c!"4")⟩, .type (.enum c!"colour" badgeColours),
   .type (.struct c!"label" [.string c!"text" (some (.identifier c!"MAX"))]), .type (.union c!"shape" badgeUnion)]

def laterBadges : List Definition :=
  [.constant ⟨c!"LIMIT", .constant (.decimal c!"8")⟩, .type (.enum c!"colour" laterBadgeColours),
   .type (.struct c!"label" [.string c!"value" (some (.identifier c!"LIMIT"))]),
   .type (.struct c!"extra" [.variable (.identifier c!"colour") c!"c"]),
   .type (.union c!"shape" laterBadgeUnion)]

theorem parse_badges : parse badgesText = .ok badges := by
  set_option maxRecDepth 100000 in rfl

theorem parse_laterBadges : parse laterBadgesText = .ok laterBadges := by
  set_option maxRecDepth 100000 in rfl

theorem numbered_badges : Numbered badges badgeColours [1, 2] where
  stands := .cons ⟨_, .literal _, rfl⟩ (.cons ⟨_, .literal _, rfl⟩ .nil)
  distinct := by decide
  range := by decide

theorem numbered_laterBadges : Numbered laterBadges laterBadgeColours [0, 2, 1] where
  stands := .cons ⟨_, .literal _, rfl⟩ (.cons ⟨_, .literal _, rfl⟩ (.cons ⟨_, .literal _, rfl⟩ .nil))
  distinct := by decide
  range := by decide

theorem selects_badge {ds : List Definition} {as : List Assign} (h : typeOf ds c!"colour" = some (.enum c!"colour" as))
    {nm : Str} {c : Constant} (ha : ⟨nm, .constant c⟩ ∈ as) :
    Selects ds (.identifier c!"colour") (.identifier nm) c.number :=
  .enum (a := ⟨nm, .constant c⟩) h ha ⟨_, .literal _, rfl⟩

theorem labelled_badges : Labelled badges (.identifier c!"colour") badgeUnion.labels [1, 2] where
  selects := .cons (selects_badge (as := badgeColours) (c := .decimal c!"1") rfl (by decide))
    (.cons (selects_badge (as := badgeColours) (c := .decimal c!"2") rfl (by decide)) .nil)
  distinct := by decide
  range := by decide

theorem labelled_laterBadges : Labelled laterBadges (.identifier c!"colour") laterBadgeUnion.labels [0, 1, 2] where
  selects := .cons (selects_badge (as := laterBadgeColours) (c := .decimal c!"0") rfl (by decide))
    (.cons (selects_badge (as := laterBadgeColours) (c := .decimal c!"1") rfl (by decide))
    (.cons (selects_badge (as := laterBadgeColours) (c := .decimal c!"2") rfl (by decide)) .nil))
  distinct := by decide
  range := by decide

theorem badges_labels : badgeUnion.labels = [(.identifier c!"RED", .variable (.identifier c!"label") c!"n"),
  (.identifier c!"BLUE", .void)] := rfl

theorem laterBadges_labels : laterBadgeUnion.labels = [(.identifier c!"GREEN", .variable (.identifier c!"extra") c!"e"),
  (.identifier c!"RED", .variable (.identifier c!"label") c!"n"), (.identifier c!"BLUE", .void)] := rfl

/-- With `--use-indexer` or no flags. -/
theorem supported_badges (flags : Flags) (hf : flags.use_std_trait = false) : Supported badges flags.config where
  unambiguous := ⟨by decide +kernel, by decide +kernel⟩
  enums e as h := by
    simp only [badges, List.mem_cons, reduceCtorEq, Definition.type.injEq, TypeDef.enum.injEq,
      List.not_mem_nil, or_false, false_or] at h
    obtain ⟨rfl, rfl⟩ := h
    exact ⟨_, numbered_badges, fun _ => by decide⟩
  positions h := by
    simp only [Flags.config, hf] at h
    cases h
  arrays ts nm m h := by
    rcases h with h | ⟨s, ms, h, hd⟩ | ⟨u, b, v, h, hd⟩ | ⟨u, b, h, hd⟩
    · simp [badges, TypedefIn] at h
    · simp [badges] at h
      obtain ⟨rfl, rfl⟩ := h
      simp at hd
    · simp [badges] at h
      obtain ⟨rfl, rfl⟩ := h
      simp [badges_labels] at hd
    · simp [badges] at h
      obtain ⟨rfl, rfl⟩ := h
      cases hd
  unions u b h := by
    simp only [badges, List.mem_cons, reduceCtorEq, Definition.type.injEq, TypeDef.union.injEq,
      List.not_mem_nil, or_false, false_or] at h
    obtain ⟨rfl, rfl⟩ := h
    exact ⟨_, _, _, rfl, labelled_badges, fun _ => by decide⟩
  arms _ d h := by
    obtain ⟨u, b, v, h, hd⟩ := h
    simp only [badges, List.mem_cons, reduceCtorEq, Definition.type.injEq, TypeDef.union.injEq,
      List.not_mem_nil, or_false, false_or] at h
    obtain ⟨rfl, rfl⟩ := h
    simp [badges_labels] at hd
    rcases hd with ⟨-, rfl⟩ | ⟨-, rfl⟩
    · exact .inr (not_opaque (by simp) (by simp) (fun _ _ h h' => by cases h; cases h'))
    · exact .inr (not_opaque (by simp) (by simp) (fun _ _ h => by cases h))
  defaults _ d h := by
    obtain ⟨u, b, h, hd⟩ := h
    simp only [badges, List.mem_cons, reduceCtorEq, Definition.type.injEq, TypeDef.union.injEq,
      List.not_mem_nil, or_false, false_or] at h
    obtain ⟨rfl, rfl⟩ := h
    cases hd

theorem supported_laterBadges (flags : Flags) : Supported laterBadges flags.config where
  unambiguous := ⟨by decide +kernel, by decide +kernel⟩
  enums e as h := by
    simp only [laterBadges, List.mem_cons, reduceCtorEq, Definition.type.injEq, TypeDef.enum.injEq,
      List.not_mem_nil, or_false, false_or] at h
    obtain ⟨rfl, rfl⟩ := h
    exact ⟨_, numbered_laterBadges, fun _ => by decide⟩
  positions _ d name e as _ _ ht := by
    have hm := (typeOf_mem ht).1
    simp only [laterBadges, List.mem_cons, reduceCtorEq, Definition.type.injEq, TypeDef.enum.injEq,
      List.not_mem_nil, or_false, false_or] at hm
    obtain ⟨rfl, rfl⟩ := hm
    exact ⟨_, numbered_laterBadges, by decide⟩
  arrays ts nm m h := by
    rcases h with h | ⟨s, ms, h, hd⟩ | ⟨u, b, v, h, hd⟩ | ⟨u, b, h, hd⟩
    · simp [laterBadges, TypedefIn] at h
    · simp [laterBadges] at h
      rcases h with ⟨rfl, rfl⟩ | ⟨rfl, rfl⟩ <;> simp at hd
    · simp [laterBadges] at h
      obtain ⟨rfl, rfl⟩ := h
      simp [laterBadges_labels] at hd
    · simp [laterBadges] at h
      obtain ⟨rfl, rfl⟩ := h
      cases hd
  unions u b h := by
    simp only [laterBadges, List.mem_cons, reduceCtorEq, Definition.type.injEq, TypeDef.union.injEq,
      List.not_mem_nil, or_false, false_or] at h
    obtain ⟨rfl, rfl⟩ := h
    exact ⟨_, _, _, rfl, labelled_laterBadges, fun _ => by decide⟩
  arms _ d h := by
    obtain ⟨u, b, v, h, hd⟩ := h
    simp only [laterBadges, List.mem_cons, reduceCtorEq, Definition.type.injEq, TypeDef.union.injEq,
      List.not_mem_nil, or_false, false_or] at h
    obtain ⟨rfl, rfl⟩ := h
    simp [laterBadges_labels] at hd
    rcases hd with ⟨-, rfl⟩ | ⟨-, rfl⟩ | ⟨-, rfl⟩
    · exact .inr (not_opaque (by simp) (by simp) (fun _ _ h h' => by cases h; cases h'))
    · exact .inr (not_opaque (by simp) (by simp) (fun _ _ h h' => by cases h; cases h'))
    · exact .inr (not_opaque (by simp) (by simp) (fun _ _ h => by cases h))
  defaults _ d h := by
    obtain ⟨u, b, h, hd⟩ := h
    simp only [laterBadges, List.mem_cons, reduceCtorEq, Definition.type.injEq, TypeDef.union.injEq,
      List.not_mem_nil, or_false, false_or] at h
    obtain ⟨rfl, rfl⟩ := h
    cases hd

/-- The second version is later than the first: another member and label, another order, other names, a larger
maximum. -/
theorem versions_badges : Versions false badges laterBadges := by
  have hred : SameNumber badges laterBadges (.constant (.decimal c!"1")) (.constant (.decimal c!"1")) := by
    rintro k ⟨c, h, rfl⟩
    cases h
    exact ⟨_, .literal _, rfl⟩
  have hblue : SameNumber badges laterBadges (.constant (.decimal c!"2")) (.constant (.decimal c!"2")) := by
    rintro k ⟨c, h, rfl⟩
    cases h
    exact ⟨_, .literal _, rfl⟩
  intro name t ht
  obtain ⟨hm, hn⟩ := typeOf_mem ht
  simp only [badges, List.mem_cons, reduceCtorEq, Definition.type.injEq, List.not_mem_nil, or_false,
    false_or] at hm
  rcases hm with rfl | rfl | rfl
  · cases hn
    refine ⟨.enum c!"colour" laterBadgeColours, rfl, .enum fun a ha => ?_⟩
    simp only [badgeColours, List.mem_cons, List.not_mem_nil, or_false] at ha
    rcases ha with rfl | rfl
    · exact ⟨⟨c!"RED", _⟩, by simp [laterBadgeColours], hred⟩
    · exact ⟨⟨c!"BLUE", _⟩, by simp [laterBadgeColours], hblue⟩
  · cases hn
    refine ⟨.struct c!"label" [.string c!"value" (some (.identifier c!"LIMIT"))], rfl,
      .struct (.cons (.string fun v' k' h1 h2 => ?_) .nil)⟩
    cases h1
    have h8 : Stands laterBadges (.identifier c!"LIMIT") 8 := ⟨.decimal c!"8", .name rfl (.literal _), rfl⟩
    have := stands_unique h2 h8
    subst this
    exact ⟨_, 4, rfl, ⟨.decimal c!"4", .name rfl (.literal _), rfl⟩, by decide⟩
  · cases hn
    refine ⟨.union c!"shape" laterBadgeUnion, rfl, .union rfl rfl (fun l hl => ?_) (by simp)⟩
    rw [badges_labels] at hl
    have hu : Unambiguous badges := ⟨by decide +kernel, by decide +kernel⟩
    simp only [List.mem_cons, List.not_mem_nil, or_false] at hl
    rcases hl with rfl | rfl
    · refine ⟨(.identifier c!"RED", .variable (.identifier c!"label") c!"n"), by simp [laterBadges_labels],
        fun k hk => ?_, .variable⟩
      have := hk.unique hu (selects_badge (as := badgeColours) (c := .decimal c!"1") rfl (by decide))
      subst this
      exact selects_badge (as := laterBadgeColours) (c := .decimal c!"1") rfl (by decide)
    · refine ⟨(.identifier c!"BLUE", .void), by simp [laterBadges_labels], fun k hk => ?_, .void⟩
      have := hk.unique hu (selects_badge (as := badgeColours) (c := .decimal c!"2") rfl (by decide))
      subst this
      exact selects_badge (as := laterBadgeColours) (c := .decimal c!"2") rfl (by decide)

/-- A red shape, between a program of the first version with `--use-indexer` and one of the second with
`--use-std-trait --use-union`. -/
example : ∃ file defs file' defs', run 9 badgesText { use_indexer := true } = .printed file ∧ file.defs = some defs ∧
    run 9 laterBadgesText { use_std_trait := true, use_union := true } = .printed file' ∧ file'.defs = some defs' ∧
    Understand (Xdr.program defs) "Shape" (Xdr.program defs') "Shape"
      (.union (.enum 1) (.struct [.string (utf8Bytes ['a', 'é'])])) := by
  obtain ⟨file, defs, hr, hd⟩ := run_accepted (n := 9) (flags := { use_indexer := true }) parse_badges
    (by decide +kernel)
  obtain ⟨file', defs', hr', hd'⟩ := run_accepted (n := 9) (flags := { use_std_trait := true, use_union := true })
    parse_laterBadges (by decide +kernel)
  refine ⟨file, defs, file', defs', hr, hd, hr', hd', ?_⟩
  obtain ⟨ds, ds', hp, hp', key⟩ := C83_versions_partial hr hr' hd hd'
  rw [parse_badges] at hp
  rw [parse_laterBadges] at hp'
  cases hp
  cases hp'
  have hmax : ∀ (v : Value) (k : Int), some (.identifier c!"MAX") = some v → Stands badges v k →
      ((utf8Bytes ['a', 'é']).length : Int) ≤ k := by
    intro v k hv hk
    cases hv
    have := stands_unique hk (⟨.decimal c!"4", .name rfl (.literal _), rfl⟩ : Stands badges (.identifier c!"MAX") 4)
    subst this
    decide
  obtain ⟨ty, hty, h⟩ := key (supported_badges _ rfl) (supported_laterBadges _) false versions_badges (by simp)
    (.union c!"shape" badgeUnion) c!"shape" (.union (.enum 1) (.struct [.string (utf8Bytes ['a', 'é'])]))
    (by simp [badges]) rfl (by simp) (by simp)
    (by
      intro e as hm he
      simp only [laterBadges, List.mem_cons, reduceCtorEq, Definition.type.injEq, TypeDef.enum.injEq,
        List.not_mem_nil, or_false, false_or] at hm
      obtain ⟨rfl, rfl⟩ := hm
      exact absurd he (by decide))
    (.arm (v := .identifier c!"RED") (d := .variable (.identifier c!"label") c!"n") rfl (by simp [badges_labels])
      (selects_badge (as := badgeColours) (c := .decimal c!"1") rfl (by decide))
      (.name (t := .enum c!"colour" badgeColours) rfl
        (.enum (a := ⟨c!"RED", .constant (.decimal c!"1")⟩) (by simp [badgeColours]) ⟨_, .literal _, rfl⟩)) rfl
      (.variable (.name (t := .struct c!"label" [.string c!"text" (some (.identifier c!"MAX"))]) rfl
        (.struct (.cons (.string (by decide) hmax) .nil)))))
  cases hty
  exact h

/-- C83 fails outside the fragment: with `--use-std-trait`, an enum under a typedef name is written by position. The
program without flags writes its only value as 5, which the other one does not read. -/
theorem C83_flags_violated : ∃ file file' defs defs',
    run 5 c!"enum e { A = 5 }; typedef e f; struct s { f x; };" {} = .printed file ∧ file.defs = some defs ∧
    run 5 c!"enum e { A = 5 }; typedef e f; struct s { f x; };" { use_std_trait := true } = .printed file' ∧
    file'.defs = some defs' ∧ toBytes (Xdr.program defs) (.named "S") (.seq [.variant 5 []]) = .ok [0, 0, 0, 5] ∧
    ∀ n, ∃ e, fromBytes (Xdr.program defs') (n + 5) (.named "S") [0, 0, 0, 5] = .err e :=
  ⟨_, _, _, _, rfl, rfl, rfl, rfl, by rfl, fun _ => ⟨_, rfl⟩⟩

end Xdr.Rpcgen
