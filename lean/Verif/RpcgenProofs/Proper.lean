import Verif.Spec.Proper
import Verif.Spec.Translatable
import Verif.RpcgenProofs.CleanUnion
import Verif.RpcgenProofs.Safe
import Verif.RpcgenProofs.EndToEndRep
import Verif.Props.Consts
import Verif.Props.Resolve
/-!
# Proper interfaces are translatable and without circular definitions
-/

namespace Xdr.Rpcgen

variable {ds : List Definition} {cfg : Config}

theorem memberOf_mem {name : Str} {v : Value} (h : memberOf ds name = some v) :
    ∃ e as a, .type (.enum e as) ∈ ds ∧ a ∈ as ∧ a.identifier = name ∧ a.value = v := by
  obtain ⟨d, hd, hx⟩ := List.exists_of_findSome?_eq_some h
  cases d with
  | type t =>
    cases t with
    | enum e as =>
      simp only [Option.map_eq_some_iff] at hx
      obtain ⟨b, hb, rfl⟩ := hx
      exact ⟨e, as, b, hd, List.mem_of_find?_eq_some hb, by simpa using List.find?_some hb, rfl⟩
    | _ => simp at hx
  | _ => simp at hx

theorem constOf_mem {name : Str} {v : Value} (h : constOf ds name = some v) : .constant ⟨name, v⟩ ∈ ds := by
  obtain ⟨d, hd, hx⟩ := List.exists_of_findSome?_eq_some h
  cases d with
  | constant a =>
    obtain ⟨i, w⟩ := a
    by_cases hi : i = name
    · simp only [hi, if_true, Option.some.injEq] at hx
      subst hi hx
      exact hd
    · simp [hi] at hx
  | _ => simp at hx

theorem noClash_of_unambiguous (hu : Unambiguous ds) : NoClash ds := by
  intro name
  cases hm : memberOf ds name with
  | none => exact .inr rfl
  | some v =>
    refine .inl ?_
    cases hc : constOf ds name with
    | none => rfl
    | some w =>
      exfalso
      obtain ⟨e, as, a, he, ha, rfl, -⟩ := memberOf_mem hm
      have := flatMap_nodup_unique hu.values he (constOf_mem hc) (x := a.identifier)
        (List.mem_map.2 ⟨a, ha, rfl⟩) (by simp)
      cases this

theorem uses_lookup (hnc : NoClash ds) {a b : Str} (h : Uses ds a b) : lookup ds a = some (.identifier b) := by
  unfold lookup
  rcases h with h | h
  · rw [h]; rfl
  · rcases hnc a with h' | h'
    · rw [h', h]; rfl
    · rw [h] at h'; cases h'

theorem denotes_acc (hnc : NoClash ds) {v : Value} {c : Constant} (h : Denotes ds v c) :
    ∀ a, v = .identifier a → Acc (fun b a => Uses ds a b) a := by
  induction h with
  | literal c => intro a ha; cases ha
  | @name name v c hl _ ih =>
    intro a ha
    cases ha
    refine ⟨_, fun b hb => ?_⟩
    have := uses_lookup hnc hb
    rw [hl] at this
    exact ih b (Option.some.inj this)

theorem acc_irrefl {α : Type} {r : α → α → Prop} {a : α} (h : Acc r a) : ¬ r a a := by
  induction h with
  | intro a _ ih => exact fun hr => ih a hr hr

theorem acc_not_reaches {a : Str} (h : Acc (fun b a => Uses ds a b) a) : ¬ Reaches ds a a := by
  have hr : ∀ {a b}, Reaches ds a b → Relation.TransGen (fun b a => Uses ds a b) b a := by
    intro a b h
    induction h with
    | step h => exact .single h
    | more _ h ih => exact .head h ih
  exact fun hc => acc_irrefl h.transGen (hr hc)

/-- If every constant and every member of an enum has a number, none is defined by itself. -/
theorem acyclic_of_denotes (hnc : NoClash ds)
    (hall : ∀ a v, lookup ds a = some v → ∃ c, Denotes ds v c) : Acyclic ds := by
  intro a
  cases hl : lookup ds a with
  | none =>
    intro h
    have : ∀ {a b}, Reaches ds a b → ∃ c, Uses ds a c := by
      intro a b h
      induction h with
      | step h => exact ⟨_, h⟩
      | more _ _ ih => exact ih
    obtain ⟨b, hb⟩ := this h
    rw [uses_lookup hnc hb] at hl
    cases hl
  | some v =>
    obtain ⟨c, hc⟩ := hall a v hl
    exact acc_not_reaches (denotes_acc hnc (.name hl hc) a rfl)

/-- One typedef step. -/
def Step (ds : List Definition) (b a : Str) : Prop :=
  ∃ d, typeOf ds a = some (.declaration d) ∧ d.element = some (.identifier b)

theorem known_acc {ts : TypeSpecifier} (h : KnownType ds ts) : ∀ a, ts = .identifier a → Acc (Step ds) a := by
  induction h with
  | @item name t ht hnd =>
    intro a ha
    cases ha
    refine ⟨_, fun b ⟨d, hd, _⟩ => ?_⟩
    rw [ht] at hd
    cases hd
    exact absurd rfl (hnd d)
  | @typedef name d ts ht he _ ih =>
    intro a ha
    cases ha
    refine ⟨_, fun b ⟨d', hd, he'⟩ => ?_⟩
    rw [ht] at hd
    cases hd
    rw [he] at he'
    exact ih b (Option.some.inj he')
  | @bytes name d ht _ he =>
    intro a ha
    cases ha
    refine ⟨_, fun b ⟨d', hd, he'⟩ => ?_⟩
    rw [ht] at hd
    cases hd
    rw [he] at he'
    cases he'
  | _ => intro a ha; cases ha

/-- Known types do not lead back to themselves. -/
theorem known_not_leadsTo (h : ∀ d ts, DeclIn ds d → d.element = some ts → KnownType ds ts) (a : Str) :
    ¬ LeadsTo ds a a := by
  have hstep : ∀ a, Acc (Step ds) a := fun a => ⟨_, fun b ⟨d, hd, he⟩ =>
    known_acc (h d _ (.inl (typeOf_mem hd).1) he) b rfl⟩
  have hr : ∀ {a b}, LeadsTo ds a b → Relation.TransGen (Step ds) b a := by
    intro a b h
    induction h with
    | step h1 h2 => exact .single ⟨_, h1, h2⟩
    | more h1 h2 _ ih => exact .tail ih ⟨_, h1, h2⟩
  exact fun hc => acc_irrefl (hstep a).transGen (hr hc)

section
variable (hwf : WellFormed ds) (h : Proper ds cfg)
include hwf h

theorem proper_literal {c : Constant} (hc : .number c ∈ atoms ds) (h0 : 0 ≤ c.number) (h1 : c.number ≤ 32) :
    c.value .usize = .ok c.number := by
  obtain ⟨s, hs⟩ := hwf _ hc
  rw [C38_value hs, if_pos]
  constructor
  · exact h0
  · exact Int.le_trans h1 (by decide)

/-- The declarations of a proper file have a type if what they are made of has. -/
theorem proper_decl {d : Declaration} (hd : DeclIn ds d) (hv : d ≠ .void)
    (hts : ∀ ts, d.element = some ts → ∃ ty op, SpecType ds true ts ty op) :
    ∃ ty op, DeclType ds true d ty op := by
  cases d with
  | «variable» ts nm =>
    obtain ⟨ty, op, hs⟩ := hts ts rfl
    exact ⟨_, _, .variable hs⟩
  | fixedArray ts nm v =>
    obtain ⟨ty, op, hs⟩ := hts ts rfl
    obtain ⟨c, rfl, hc⟩ := h.clean.lengths ts nm v hd
    exact ⟨_, _, .fixedArray hs (.literal (proper_literal hwf h
      (declIn_atoms hd _ (by simp [Declaration.atoms, Value.atoms])) (h.lengths _ _ _ hd) hc))⟩
  | variableArray ts nm m =>
    obtain ⟨ty, op, hs⟩ := hts ts rfl
    by_cases ho : op = .variable
    · subst ho
      exact ⟨_, _, .opaqueArray hs⟩
    · exact ⟨_, _, .variableArray hs ho⟩
  | opaqueFixedArray nm v =>
    cases v with
    | constant c =>
      obtain ⟨k, hk, hle⟩ := h.clean.opaqueLengths nm _ hd
      cases hk
      exact ⟨_, _, .opaqueFixed (.literal (proper_literal hwf h
        (declIn_atoms hd _ (by simp [Declaration.atoms, Value.atoms])) (h.opaqueLengths _ _ hd) hle))⟩
    | identifier i =>
      have hi : Atom.ident i ∈ atoms ds := declIn_atoms hd _ (by simp [Declaration.atoms, Value.atoms])
      obtain ⟨id, hid⟩ := mkIdent_ident (hwf _ hi)
      exact ⟨_, _, .opaqueFixed (.name hid)⟩
  | opaqueVariableArray nm m => exact ⟨_, _, .opaqueVar⟩
  | string nm m => exact ⟨_, _, .string⟩
  | optionVariable ts nm =>
    obtain ⟨ty, op, hs⟩ := hts ts rfl
    exact ⟨_, _, .option hs⟩
  | void => exact absurd rfl hv

theorem proper_spec {ts : TypeSpecifier} (hk : KnownType ds ts) : ∃ ty op, SpecType ds true ts ty op := by
  induction hk with
  | int s => cases s <;> exact ⟨_, _, by constructor⟩
  | hyper s => cases s <;> exact ⟨_, _, by constructor⟩
  | float => exact ⟨_, _, .float⟩
  | double => exact ⟨_, _, .double⟩
  | bool => exact ⟨_, _, .bool⟩
  | char s => cases s <;> exact ⟨_, _, by constructor⟩
  | short s => cases s <;> exact ⟨_, _, by constructor⟩
  | @item name t ht hnd =>
    obtain ⟨hm, hn⟩ := typeOf_mem ht
    have hi : Atom.ident name ∈ atoms ds := by
      refine mem_atoms_def hm ?_
      cases t with
      | declaration d => exact absurd rfl (hnd d)
      | enum e as => cases hn; simp [Definition.atoms, TypeDef.atoms]
      | struct s ms => cases hn; simp [Definition.atoms, TypeDef.atoms]
      | union u b => cases hn; simp [Definition.atoms, TypeDef.atoms]
    obtain ⟨id, hid⟩ := camel_ident (hwf _ hi) (h.tame.names _ hi)
    refine ⟨_, _, .name (fun _ d hd => ?_) hid⟩
    rw [ht] at hd
    exact hnd d (Option.some.inj hd)
  | @typedef name d ts ht he _ ih =>
    obtain ⟨ty, op, hdt⟩ := proper_decl hwf h (.inl (typeOf_mem ht).1)
      (fun hv => by subst hv; cases he) (fun ts' he' => by rw [he] at he'; cases he'; exact ih)
    exact ⟨_, _, .typedef rfl ht hdt⟩
  | @bytes name d ht hv he =>
    obtain ⟨ty, op, hdt⟩ := proper_decl hwf h (.inl (typeOf_mem ht).1) hv
      (fun ts' he' => by rw [he] at he'; cases he')
    exact ⟨_, _, .typedef rfl ht hdt⟩

theorem proper_type {d : Declaration} (hd : DeclIn ds d) : d = .void ∨ ∃ ty op, DeclType ds true d ty op := by
  by_cases hv : d = .void
  · exact .inl hv
  · exact .inr (proper_decl hwf h hd hv fun ts he => proper_spec hwf h (h.types d ts hd he))

omit hwf in
theorem proper_acyclic : Acyclic ds := by
  have hnc := noClash_of_unambiguous h.clean.unambiguous
  refine acyclic_of_denotes hnc fun a v hl => ?_
  unfold lookup at hl
  cases hc : constOf ds a with
  | some w =>
    rw [hc] at hl
    have hl : w = v := Option.some.inj hl
    subst hl
    obtain ⟨-, -, k, hk, -⟩ := h.clean.constants ⟨a, w⟩ (List.mem_filterMap.2 ⟨_, constOf_mem hc, rfl⟩)
    obtain ⟨c, hc, -⟩ := through_stands hk
    exact ⟨c, hc⟩
  | none =>
    rw [hc] at hl
    obtain ⟨e, as, b, he, hb, -, rfl⟩ := memberOf_mem hl
    obtain ⟨⟨ks, hks⟩, -⟩ := h.clean.enums e as he
    obtain ⟨k, -, c, hc, -⟩ := forall₂_mem_left hks.stands hb
    exact ⟨c, hc⟩

theorem proper_translatable : Translatable ds := by
  have hnc := noClash_of_unambiguous h.clean.unambiguous
  refine ⟨h.constants, ?_, ?_, ?_, ?_, ?_, ?_⟩
  · intro e as he a ha
    obtain ⟨⟨ks, hks⟩, -⟩ := h.clean.enums e as he
    obtain ⟨k, hk, hs⟩ := forall₂_mem_left hks.stands ha
    exact ⟨k, (C41_outcome_stands hnc).2 ⟨hs, hks.range k hk⟩⟩
  · rintro d ⟨s, ms, hm, hd⟩
    rcases proper_type hwf h (.inr (.inl ⟨s, ms, hm, hd⟩)) with rfl | ht
    · obtain ⟨f, hf, -⟩ := h.tame.members s ms hm _ hd
      cases hf
    · exact ht
  · intro u b hm
    obtain ⟨cond, nm, ks, names, hb, hl, -⟩ := h.clean.unions u b hm
    refine ⟨cond, nm, hb, ?_⟩
    obtain ⟨l, hl'⟩ := List.exists_mem_of_ne_nil _ (labels_ne hwf hm)
    obtain ⟨k, -, hs⟩ := forall₂_mem_left hl.selects hl'
    generalize l.1 = v at hs
    cases hs with
    | int => exact .int _
    | false => exact .bool
    | true => exact .bool
    | enum => exact .name _
    | typedef => exact .name _
  · intro u b ts nm hm hb hts l hl
    obtain ⟨cond, nm', ks, names, hb', hlab, -⟩ := h.clean.unions u b hm
    rw [hb] at hb'
    cases hb'
    obtain ⟨k, hk, hs⟩ := forall₂_mem_left hlab.selects hl
    exact ⟨k, (C41_outcome_stands hnc).2 ⟨hs.stands h.clean.unambiguous hts, hlab.range k hk⟩⟩
  · intro u b hm l hl
    refine proper_type hwf h (.inr (.inr (.inl ⟨u, b, l.1, hm, ?_⟩)))
    unfold UnionBody.used at hl
    split at hl
    · rcases List.mem_append.1 hl with hl | hl
      · exact List.mem_of_find?_eq_some (Option.mem_toList.1 hl)
      · exact List.mem_of_find?_eq_some (Option.mem_toList.1 hl)
    · exact hl
  · exact fun d hd => proper_type hwf h (.inr (.inr (.inr (.inl hd))))

end

end Xdr.Rpcgen
