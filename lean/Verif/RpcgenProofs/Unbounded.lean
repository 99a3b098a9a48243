import Verif.Props.GenLimits
import Verif.Spec.Accepted
import Verif.RpcgenProofs.Versions
/-!
# A file without its maximum lengths

What its conditions and numbers are: those of the file.
-/

namespace Xdr.Rpcgen

open Rfc (XVal)

/-- Without the maximum lengths. -/
abbrev TypeDef.free (t : TypeDef) : TypeDef := t.rebound fun _ => none

/-- Without the maximum length. -/
abbrev Declaration.free (d : Declaration) : Declaration := d.rebound fun _ => none

theorem free_name (t : TypeDef) : t.free.name = t.name := by
  cases t with
  | declaration d => cases d <;> rfl
  | _ => rfl

theorem mem_unbounded {ds : List Definition} {t : TypeDef} :
    .type t ∈ unbounded ds ↔ ∃ t0, .type t0 ∈ ds ∧ t = t0.free := by
  simp only [unbounded, List.mem_map]
  constructor
  · rintro ⟨d, hd, h⟩
    cases d with
    | type t0 => cases h; exact ⟨t0, hd, rfl⟩
    | _ => cases h
  · rintro ⟨t0, hd, rfl⟩
    exact ⟨_, hd, rfl⟩

theorem typeOf_unbounded (ds : List Definition) (name : Str) :
    typeOf (unbounded ds) name = (typeOf ds name).map TypeDef.free := by
  induction ds with
  | nil => rfl
  | cons d ds ih =>
    cases d with
    | type t =>
      simp only [unbounded, typeOf, List.map_cons, List.findSome?_cons, Definition.rebound] at ih ⊢
      rw [show (TypeDef.rebound (fun _ => none) t).name = t.name from free_name t]
      by_cases h : t.name = some name
      · simp [h]
      · simp only [h, if_false]
        exact ih
    | _ => exact ih

theorem constOf_unbounded (ds : List Definition) (name : Str) : constOf (unbounded ds) name = constOf ds name := by
  simp only [constOf, unbounded, List.findSome?_map]
  congr 1
  funext d
  cases d <;> rfl

theorem memberOf_unbounded (ds : List Definition) (name : Str) : memberOf (unbounded ds) name = memberOf ds name := by
  simp only [memberOf, unbounded, List.findSome?_map]
  congr 1
  funext d
  cases d with
  | type t => cases t <;> rfl
  | _ => rfl

theorem lookup_unbounded (ds : List Definition) (name : Str) : lookup (unbounded ds) name = lookup ds name := by
  rw [lookup, lookup, constOf_unbounded, memberOf_unbounded]

theorem stands_unbounded {ds : List Definition} {v : Value} {k : Int} : Stands (unbounded ds) v k ↔ Stands ds v k := by
  constructor
  · rintro ⟨c, h, hk⟩
    refine ⟨c, ?_, hk⟩
    induction h with
    | literal c => exact .literal c
    | name h _ ih => exact .name (by rw [← h, lookup_unbounded]) (ih hk)
  · rintro ⟨c, h, hk⟩
    refine ⟨c, ?_, hk⟩
    induction h with
    | literal c => exact .literal c
    | name h _ ih => exact .name (by rw [← h, lookup_unbounded]) (ih hk)

theorem labels_free (b : UnionBody) :
    (b.rebound fun _ => none).labels = b.labels.map fun l => (l.1, l.2.free) := by
  obtain ⟨cond, specs, dflt⟩ := b
  simp only [UnionBody.rebound, UnionBody.labels, UnionBody.specs]
  induction specs with
  | nil => rfl
  | cons s specs ih =>
    obtain ⟨vs, d⟩ := s
    simp only [List.map_cons, List.flatMap_cons, List.map_append, ih, List.map_map]
    rfl

theorem Selects.unbounded {ds : List Definition} {ts : TypeSpecifier} {v : Value} {k : Int} (h : Selects ds ts v k) :
    Selects (unbounded ds) ts v k := by
  induction h with
  | int h => exact .int (stands_unbounded.2 h)
  | false => exact .false
  | true => exact .true
  | enum h1 h2 h3 => exact .enum (by rw [typeOf_unbounded, h1]; rfl) h2 (stands_unbounded.2 h3)
  | typedef h1 h2 _ ih => exact .typedef (by rw [typeOf_unbounded, h1]; rfl) h2 ih

theorem Selects.bounded {ds : List Definition} {ts : TypeSpecifier} {v : Value} {k : Int}
    (h : Selects (Rpcgen.unbounded ds) ts v k) : Selects ds ts v k := by
  induction h with
  | int h => exact .int (stands_unbounded.1 h)
  | false => exact .false
  | true => exact .true
  | enum h1 h2 h3 =>
    rw [typeOf_unbounded, Option.map_eq_some_iff] at h1
    obtain ⟨t, h1, ht⟩ := h1
    cases t <;> cases ht
    exact .enum h1 h2 (stands_unbounded.1 h3)
  | typedef h1 h2 _ ih =>
    rw [typeOf_unbounded, Option.map_eq_some_iff] at h1
    obtain ⟨t, h1, ht⟩ := h1
    cases t with
    | declaration d =>
      cases d <;> cases ht
      exact .typedef h1 h2 ih
    | _ => cases ht

theorem selects_unbounded {ds : List Definition} {ts : TypeSpecifier} {v : Value} {k : Int} :
    Selects (unbounded ds) ts v k ↔ Selects ds ts v k := ⟨.bounded, .unbounded⟩

theorem numbered_unbounded {ds : List Definition} {as : List Assign} {ks : List Int} :
    Numbered (unbounded ds) as ks ↔ Numbered ds as ks := by
  constructor
  · rintro ⟨h1, h2, h3⟩
    exact ⟨h1.imp fun _ _ => stands_unbounded.1, h2, h3⟩
  · rintro ⟨h1, h2, h3⟩
    exact ⟨h1.imp fun _ _ => stands_unbounded.2, h2, h3⟩

theorem positional_unbounded {ds : List Definition} {as : List Assign} :
    Positional (unbounded ds) as ↔ Positional ds as := by
  simp only [Positional, numbered_unbounded]

theorem enum_unbounded {ds : List Definition} {e : Str} {as : List Assign} :
    .type (.enum e as) ∈ unbounded ds ↔ .type (.enum e as) ∈ ds := by
  rw [mem_unbounded]
  constructor
  · rintro ⟨t, h, ht⟩
    cases t <;> cases ht
    exact h
  · exact fun h => ⟨_, h, rfl⟩

theorem union_unbounded {ds : List Definition} {u : Str} {b : UnionBody} (h : .type (.union u b) ∈ unbounded ds) :
    ∃ b0, .type (.union u b0) ∈ ds ∧ b = b0.rebound fun _ => none := by
  rw [mem_unbounded] at h
  obtain ⟨t, h, ht⟩ := h
  cases t <;> cases ht
  exact ⟨_, h, rfl⟩

theorem cond_free (b : UnionBody) : (b.rebound fun _ => none).cond = b.cond := rfl

theorem default_free (b : UnionBody) :
    (b.rebound fun _ => none).default = b.default.map Declaration.free := rfl

theorem typedefIn_unbounded {ds : List Definition} {d : Declaration} (h : TypedefIn (unbounded ds) d) :
    ∃ d0, TypedefIn ds d0 ∧ d = d0.free := by
  rw [TypedefIn, mem_unbounded] at h
  obtain ⟨t, h, ht⟩ := h
  cases t <;> cases ht
  exact ⟨_, h, rfl⟩

theorem memberIn_unbounded {ds : List Definition} {d : Declaration} (h : MemberIn (unbounded ds) d) :
    ∃ d0, MemberIn ds d0 ∧ d = d0.free := by
  obtain ⟨s, ms, h, hd⟩ := h
  rw [mem_unbounded] at h
  obtain ⟨t, h, ht⟩ := h
  cases t <;> cases ht
  obtain ⟨d0, h0, rfl⟩ := List.mem_map.1 hd
  exact ⟨d0, ⟨_, _, h, h0⟩, rfl⟩

theorem armIn_unbounded {ds : List Definition} {d : Declaration} (h : ArmIn (unbounded ds) d) :
    ∃ d0, ArmIn ds d0 ∧ d = d0.free := by
  obtain ⟨u, b, v, h, hd⟩ := h
  obtain ⟨b0, hb, rfl⟩ := union_unbounded h
  rw [labels_free] at hd
  obtain ⟨⟨v0, d0⟩, h0, he⟩ := List.mem_map.1 hd
  cases he
  exact ⟨d0, ⟨_, _, _, hb, h0⟩, rfl⟩

theorem defaultIn_unbounded {ds : List Definition} {d : Declaration} (h : DefaultIn (unbounded ds) d) :
    ∃ d0, DefaultIn ds d0 ∧ d = d0.free := by
  obtain ⟨u, b, h, hd⟩ := h
  obtain ⟨b0, hb, rfl⟩ := union_unbounded h
  rw [default_free, Option.map_eq_some_iff] at hd
  obtain ⟨d0, h0, rfl⟩ := hd
  exact ⟨d0, ⟨_, _, hb, h0⟩, rfl⟩

theorem condIn_unbounded {ds : List Definition} {d : Declaration} (h : CondIn (unbounded ds) d) : CondIn ds d := by
  obtain ⟨u, b, h, hd⟩ := h
  obtain ⟨b0, hb, rfl⟩ := union_unbounded h
  exact ⟨_, _, hb, hd⟩

theorem free_type (d : Declaration) : d.free.type_specifier = d.type_specifier := by cases d <;> rfl

theorem free_element (d : Declaration) : d.free.element = d.element := by cases d <;> rfl

theorem PlainOpaque.free {ds : List Definition} {d : Declaration} (h : PlainOpaque ds d) :
    PlainOpaque (unbounded ds) d.free := by
  induction h with
  | direct => exact .direct
  | typedef h _ ih => exact .typedef (by rw [typeOf_unbounded, h]; rfl) ih

theorem typeOf_declaration {ds : List Definition} {name : Str} {d : Declaration}
    (h : typeOf (unbounded ds) name = some (.declaration d)) :
    ∃ d0, typeOf ds name = some (.declaration d0) ∧ d = d0.free := by
  rw [typeOf_unbounded, Option.map_eq_some_iff] at h
  obtain ⟨t, h, ht⟩ := h
  cases t <;> cases ht
  exact ⟨_, h, rfl⟩

theorem HasOpaque.bounded {ds : List Definition} {d : Declaration} (h : HasOpaque (unbounded ds) d) :
    ∀ d0 : Declaration, d = d0.free → HasOpaque ds d0 := by
  induction h with
  | fixed =>
    intro d0 h
    cases d0 <;> cases h
    exact .fixed
  | «variable» =>
    intro d0 h
    cases d0 <;> cases h
    exact .variable
  | typedef h1 h2 _ ih =>
    rintro d0 rfl
    obtain ⟨d1, h3, rfl⟩ := typeOf_declaration h2
    exact .typedef (by rwa [free_type] at h1) h3 (ih d1 rfl)

theorem OpaqueOk.free {ds : List Definition} {d : Declaration} (h : OpaqueOk ds d) : OpaqueOk (unbounded ds) d.free := by
  rcases h with h | h
  · exact .inl h.free
  · exact .inr fun h' => h (h'.bounded d rfl)

theorem definedNames_unbounded (ds : List Definition) : definedNames (unbounded ds) = definedNames ds := by
  simp only [definedNames, unbounded, List.flatMap_map]
  congr 1
  funext d
  cases d with
  | type t => cases t <;> rfl
  | _ => rfl

theorem typeNames_unbounded (ds : List Definition) : typeNames (unbounded ds) = typeNames ds := by
  simp only [typeNames, unbounded, List.flatMap_map]
  congr 1
  funext d
  cases d with
  | type t => exact congrArg Option.toList (free_name t)
  | _ => rfl

/-- A supported file is one without its maximum lengths. -/
theorem Supported.unbounded {ds : List Definition} {cfg : Config} (h : Supported ds cfg) :
    Supported (unbounded ds) cfg where
  unambiguous := ⟨by rw [definedNames_unbounded]; exact h.unambiguous.values,
    by rw [typeNames_unbounded]; exact h.unambiguous.types⟩
  enums e as hm := by
    obtain ⟨ks, h1, h2⟩ := h.enums e as (enum_unbounded.1 hm)
    exact ⟨ks, numbered_unbounded.2 h1, h2⟩
  positions hc d name e as hd hts ht := by
    rw [positional_unbounded]
    have ht' : typeOf ds name = some (.enum e as) := by
      rw [typeOf_unbounded, Option.map_eq_some_iff] at ht
      obtain ⟨t, ht, he⟩ := ht
      cases t <;> cases he
      exact ht
    rcases hd with hd | hd | hd | hd
    · obtain ⟨d0, h0, rfl⟩ := typedefIn_unbounded hd
      exact h.positions hc d0 name e as (.inl h0) (by rwa [free_type] at hts) ht'
    · obtain ⟨d0, h0, rfl⟩ := armIn_unbounded hd
      exact h.positions hc d0 name e as (.inr (.inl h0)) (by rwa [free_type] at hts) ht'
    · obtain ⟨d0, h0, rfl⟩ := defaultIn_unbounded hd
      exact h.positions hc d0 name e as (.inr (.inr (.inl h0))) (by rwa [free_type] at hts) ht'
    · exact h.positions hc d name e as (.inr (.inr (.inr (condIn_unbounded hd)))) hts ht'
  arrays ts nm m hd := by
    have key : ∀ d0 : Declaration, TypedefIn ds d0 ∨ MemberIn ds d0 ∨ ArmIn ds d0 ∨ DefaultIn ds d0 →
        Declaration.variableArray ts nm m = d0.free → OpaqueOk (Rpcgen.unbounded ds) (.variable ts nm) := by
      intro d0 h0 he
      cases d0 <;> cases he
      exact (h.arrays _ _ _ h0).free
    rcases hd with hd | hd | hd | hd
    · obtain ⟨d0, h0, he⟩ := typedefIn_unbounded hd
      exact key d0 (.inl h0) he
    · obtain ⟨d0, h0, he⟩ := memberIn_unbounded hd
      exact key d0 (.inr (.inl h0)) he
    · obtain ⟨d0, h0, he⟩ := armIn_unbounded hd
      exact key d0 (.inr (.inr (.inl h0))) he
    · obtain ⟨d0, h0, he⟩ := defaultIn_unbounded hd
      exact key d0 (.inr (.inr (.inr h0))) he
  unions u b hm := by
    obtain ⟨b0, hb, rfl⟩ := union_unbounded hm
    obtain ⟨cond, nm, ks, h1, ⟨h2, h3, h4⟩, h5⟩ := h.unions u b0 hb
    refine ⟨cond, nm, ks, h1, ⟨?_, h3, h4⟩, h5⟩
    rw [labels_free, List.forall₂_map_left_iff]
    exact h2.imp fun _ _ => .unbounded
  arms hc d hd := by
    obtain ⟨d0, h0, rfl⟩ := armIn_unbounded hd
    exact (h.arms hc d0 h0).free
  defaults hc d hd := by
    obtain ⟨d0, h0, rfl⟩ := defaultIn_unbounded hd
    exact fun h' => h.defaults hc d0 h0 (h'.bounded d0 rfl)

theorem NamesDefined.unbounded {ds : List Definition} (h : NamesDefined ds) : NamesDefined (unbounded ds) := by
  have key : ∀ d name, DeclIn ds d → d.element = some (.identifier name) →
      typeOf (Rpcgen.unbounded ds) name ≠ none := by
    intro d name hd he
    rw [typeOf_unbounded, Ne, Option.map_eq_none_iff]
    exact h d name hd he
  intro d name hd he
  rcases hd with hd | hd | hd | hd | hd
  · obtain ⟨d0, h0, rfl⟩ := typedefIn_unbounded hd
    exact key d0 name (.inl h0) (by rwa [free_element] at he)
  · obtain ⟨d0, h0, rfl⟩ := memberIn_unbounded hd
    exact key d0 name (.inr (.inl h0)) (by rwa [free_element] at he)
  · obtain ⟨d0, h0, rfl⟩ := armIn_unbounded hd
    exact key d0 name (.inr (.inr (.inl h0))) (by rwa [free_element] at he)
  · obtain ⟨d0, h0, rfl⟩ := defaultIn_unbounded hd
    exact key d0 name (.inr (.inr (.inr (.inl h0)))) (by rwa [free_element] at he)
  · exact key d name (.inr (.inr (.inr (.inr (condIn_unbounded hd))))) he

theorem DeclLater.unbounded {ds ds' : List Definition} {d d' : Declaration} (h : DeclLater ds ds' d d') :
    DeclLater (unbounded ds) (unbounded ds') d.free d'.free := by
  cases h with
  | «variable» => exact .variable
  | fixedArray h => exact .fixedArray fun k hk => stands_unbounded.2 (h k (stands_unbounded.1 hk))
  | variableArray => exact .variableArray fun _ _ h => by cases h
  | opaqueFixed h => exact .opaqueFixed fun k hk => stands_unbounded.2 (h k (stands_unbounded.1 hk))
  | opaqueVar => exact .opaqueVar fun _ _ h => by cases h
  | string => exact .string fun _ _ h => by cases h
  | option => exact .option
  | void => exact .void

/-- Versions without their maximum lengths are versions. -/
theorem Versions.unbounded {dflt : Bool} {ds ds' : List Definition} (h : Versions dflt ds ds') :
    Versions dflt (unbounded ds) (unbounded ds') := by
  intro name t ht
  rw [typeOf_unbounded, Option.map_eq_some_iff] at ht
  obtain ⟨t, ht, rfl⟩ := ht
  obtain ⟨t', ht', hl⟩ := h name t ht
  refine ⟨t'.free, by rw [typeOf_unbounded, ht']; rfl, ?_⟩
  cases hl with
  | typedef h => exact .typedef h.unbounded
  | enum h =>
    refine .enum fun a ha => ?_
    obtain ⟨a', ha', hs⟩ := h a ha
    exact ⟨a', ha', fun k hk => stands_unbounded.2 (hs k (stands_unbounded.1 hk))⟩
  | struct h =>
    refine .struct ?_
    rw [List.forall₂_map_left_iff, List.forall₂_map_right_iff]
    exact h.imp fun _ _ => .unbounded
  | union h1 h2 h3 h4 =>
    refine .union h1 h2 (fun l hl => ?_) fun hd d hdd => ?_
    · rw [labels_free] at hl
      obtain ⟨l0, hl0, rfl⟩ := List.mem_map.1 hl
      obtain ⟨l', hl', hs, hlater⟩ := h3 l0 hl0
      exact ⟨(l'.1, l'.2.free), by rw [labels_free]; exact List.mem_map.2 ⟨l', hl', rfl⟩,
        fun k hk => (hs k hk.bounded).unbounded, hlater.unbounded⟩
    · rw [default_free, Option.map_eq_some_iff] at hdd
      obtain ⟨d0, hd0, rfl⟩ := hdd
      obtain ⟨d', hd', hlater, hs⟩ := h4 hd d0 hd0
      refine ⟨d'.free, by rw [default_free, hd']; rfl, hlater.unbounded, fun l' hl' k hk => ?_⟩
      rw [labels_free] at hl'
      obtain ⟨l0, hl0, rfl⟩ := List.mem_map.1 hl'
      obtain ⟨l, hl, hk'⟩ := hs l0 hl0 k hk.bounded
      exact ⟨(l.1, l.2.free), by rw [labels_free]; exact List.mem_map.2 ⟨l, hl, rfl⟩, hk'.unbounded⟩

theorem DeclLater.free (ds : List Definition) : (d : Declaration) → DeclLater ds (Rpcgen.unbounded ds) d d.free
  | .variable _ _ => .variable
  | .fixedArray _ _ _ => .fixedArray fun _ h => stands_unbounded.2 h
  | .variableArray _ _ _ => .variableArray fun _ _ h => by cases h
  | .opaqueFixedArray _ _ => .opaqueFixed fun _ h => stands_unbounded.2 h
  | .opaqueVariableArray _ _ => .opaqueVar fun _ _ h => by cases h
  | .string _ _ => .string fun _ _ h => by cases h
  | .optionVariable _ _ => .option
  | .void => .void

/-- To drop the maximum lengths makes a later version. -/
theorem versions_unbounded {ds : List Definition} {cfg : Config} (hok : Supported ds cfg) (dflt : Bool) :
    Versions dflt ds (unbounded ds) := by
  intro name t ht
  refine ⟨t.free, by rw [typeOf_unbounded, ht]; rfl, ?_⟩
  cases t with
  | declaration d => exact .typedef (.free ds d)
  | enum e as => exact .enum fun a ha => ⟨a, ha, fun _ h => stands_unbounded.2 h⟩
  | struct s ms =>
    refine .struct ?_
    rw [List.forall₂_map_right_iff]
    exact List.forall₂_same.2 fun d _ => .free ds d
  | union u b =>
    obtain ⟨cond, nm, ks, hc, -⟩ := hok.unions u b (typeOf_mem ht).1
    refine .union hc hc (fun l hl => ⟨(l.1, l.2.free), ?_, fun _ h => h.unbounded, .free ds _⟩)
      fun _ d hd => ⟨d.free, by rw [default_free, hd]; rfl, .free ds d, fun l hl k hk => ?_⟩
    · rw [labels_free]
      exact List.mem_map.2 ⟨l, hl, rfl⟩
    · rw [labels_free] at hl
      obtain ⟨l0, hl0, rfl⟩ := List.mem_map.1 hl
      exact ⟨l0, hl0, hk.bounded⟩

theorem upToLabels_unbounded {ds : List Definition} {b : UnionBody} {cond : TypeSpecifier} {k : Nat} :
    UpToLabels (unbounded ds) (b.rebound fun _ => none) cond k ↔ UpToLabels ds b cond k := by
  simp only [UpToLabels, labels_free, selects_unbounded]
  refine or_congr ⟨?_, ?_⟩ Iff.rfl
  · rintro ⟨l, hl, h⟩
    obtain ⟨l0, hl0, rfl⟩ := List.mem_map.1 hl
    exact ⟨l0, hl0, h⟩
  · rintro ⟨l, hl, h⟩
    exact ⟨_, List.mem_map.2 ⟨l, hl, rfl⟩, h⟩

/-- A file leaves no leeway but for its maximum lengths: without them it leaves none. -/
theorem Gapless.unbounded {ds : List Definition} {cfg : Config} (hok : Supported ds cfg) {L : Leeway} (h : Gapless ds L) :
    NoLeeway (unbounded ds) L where
  enums hl e as hm a ha j k hj h0 hk := by
    obtain ⟨a', ha', hs⟩ := h.enums hl e as (enum_unbounded.1 hm) a ha j k (stands_unbounded.1 hj) h0 hk
    exact ⟨a', ha', stands_unbounded.2 hs⟩
  unions hl u b cond nm hm hc k hk := by
    obtain ⟨b0, hb, rfl⟩ := union_unbounded hm
    obtain ⟨l, hl, hs⟩ := h.unions hl u b0 cond nm hb hc k (upToLabels_unbounded.1 hk)
    exact ⟨(l.1, l.2.free), by rw [labels_free]; exact List.mem_map.2 ⟨l, hl, rfl⟩, hs.unbounded⟩
  defaults hl u b d cond nm hm hd hc k hk := by
    obtain ⟨b0, hb, rfl⟩ := union_unbounded hm
    rw [default_free, Option.map_eq_some_iff] at hd
    obtain ⟨d0, hd0, rfl⟩ := hd
    obtain ⟨disc, h1, h2⟩ := h.defaults hl u b0 d0 cond nm hb hd0 hc k fun i => upToLabels_unbounded.symm.trans (hk i)
    exact ⟨disc, Typed.later (versions_unbounded hok true) h1, h2⟩
  labels hl u b cond nm hm hc l hmem k hk := by
    obtain ⟨b0, hb, rfl⟩ := union_unbounded hm
    rw [labels_free] at hmem
    obtain ⟨l0, hl0, rfl⟩ := List.mem_map.1 hmem
    obtain ⟨disc, h1, h2⟩ := h.labels hl u b0 cond nm hb hc l0 hl0 k hk.bounded
    exact ⟨disc, Typed.later (versions_unbounded hok true) h1, h2⟩
  limits d hd := by
    have key : ∀ d0 : Declaration, d0.free.maximum = none := fun d0 => by cases d0 <;> rfl
    rcases hd with hd | hd | hd | hd | hd
    · obtain ⟨d0, -, rfl⟩ := typedefIn_unbounded hd
      exact key d0
    · obtain ⟨d0, -, rfl⟩ := memberIn_unbounded hd
      exact key d0
    · obtain ⟨d0, -, rfl⟩ := armIn_unbounded hd
      exact key d0
    · obtain ⟨d0, -, rfl⟩ := defaultIn_unbounded hd
      exact key d0
    · obtain ⟨u, b, hm, rfl⟩ := hd
      obtain ⟨cond, nm, ks, hc, -⟩ := hok.unbounded.unions u b hm
      rw [hc]
      rfl

end Xdr.Rpcgen
