import Verif.RpcgenProofs.Enum
import Verif.RpcgenProofs.File
import Verif.RpcgenProofs.Wire
import Mathlib.Data.List.Nodup
/-!
# Matches over numbers and names
-/

namespace Xdr.Rpcgen

theorem arm_of_mem {α β : Type} [DecidableEq α] {arms : List (α × β)} (hnd : (arms.map (·.1)).Nodup)
    {k : α} {v : β} (h : (k, v) ∈ arms) : arm k arms = some v := by
  induction arms with
  | nil => cases h
  | cons p arms ih =>
    simp only [List.map_cons, List.nodup_cons] at hnd
    rcases List.mem_cons.1 h with rfl | h
    · simp [arm]
    · have hne : p.1 ≠ k := fun e => hnd.1 (List.mem_map.2 ⟨_, h, e.symm⟩)
      have := ih hnd.2 h
      simpa [arm, hne] using this

theorem arm_of_not_mem {α β : Type} [DecidableEq α] {arms : List (α × β)} {k : α}
    (h : k ∉ arms.map (·.1)) : arm k arms = none := by
  unfold arm
  rw [List.find?_eq_none.2]
  · rfl
  · intro p hp
    simp only [decide_eq_true_eq]
    rintro rfl
    exact h (List.mem_map.2 ⟨_, hp, rfl⟩)

theorem variantPos_of {β : Type} {vs : List (RIdent × β)} (hnd : (vs.map (·.1)).Nodup) {i : Nat}
    {v : RIdent × β} (h : vs[i]? = some v) : variantPos v.1 vs = some i := by
  unfold variantPos
  rw [List.findIdx?_eq_some_iff_getElem]
  obtain ⟨hi, hv⟩ := List.getElem?_eq_some_iff.1 h
  refine ⟨hi, by simp [hv], fun j hj => ?_⟩
  simp only [Bool.not_eq_true, decide_eq_false_iff_not]
  intro e
  have := (List.nodup_iff_injective_getElem.1 hnd) (a₁ := ⟨j, by simp; omega⟩) (a₂ := ⟨i, by simpa using hi⟩)
    (by simp [e, hv])
  simp only [Fin.mk.injEq] at this
  omega

theorem nodup_of_str {β : Type} {vs : List (RIdent × β)} (h : (vs.map (·.1.str)).Nodup) :
    (vs.map (·.1)).Nodup := by
  refine List.Nodup.of_map RIdent.str ?_
  simpa [List.map_map, Function.comp_def] using h

theorem first_of_nodup {α : Type} {vs : List (String × α)} (h : (vs.map (·.1)).Nodup) {i : Nat}
    {v : String × α} (hi : vs[i]? = some v) : ∀ j < i, ∀ x, vs[j]? = some x → x.1 ≠ v.1 := by
  intro j hj x hx e
  obtain ⟨h1, h2⟩ := List.getElem?_eq_some_iff.1 hi
  obtain ⟨h3, h4⟩ := List.getElem?_eq_some_iff.1 hx
  have := (List.nodup_iff_injective_getElem.1 h) (a₁ := ⟨j, by simpa using h3⟩) (a₂ := ⟨i, by simpa using h1⟩)
    (by simp [h2, h4, e])
  simp only [Fin.mk.injEq] at this
  omega

theorem toInt_ofInt {k : Int} (h : -2147483648 ≤ k ∧ k ≤ 2147483647) : (Int32.ofInt k).toInt = k :=
  Int32.toInt_ofInt_of_le (by simpa using h.1) (by have := h.2; simp; omega)

theorem encode_enum {k : Int} (h : -2147483648 ≤ k ∧ k ≤ 2147483647) :
    ∃ bs, Rfc.encode (.enum k) = some bs := by
  simp only [Rfc.encode, Rfc.signed]
  have e : (2 ^ (8 * 4 - 1) : Int) = 2147483648 := by decide
  rw [if_pos (by rw [e]; omega)]
  exact ⟨_, rfl⟩

/-- What `EnumItem.meaning` requires and gives. -/
theorem enum_meaning_ok {e : EnumItem} {d : Def} (h : e.meaning = some d) :
    (e.variants.map (·.1.str)).Nodup ∧
    ((e.deriveIndexer = false ∧ d = .enum (e.variants.map fun v => (v.1.str, .unit))) ∨
     (e.deriveIndexer = true ∧ ∃ ix, e.indexer = some ix ∧
      d = .indexer (e.variants.map fun v => (v.1.str, none)) (enumIndexerImpl e.variants ix))) := by
  unfold EnumItem.meaning at h
  split at h
  · next hn =>
    refine ⟨hn.1, ?_⟩
    split at h
    · next hi =>
      simp only [Option.map_eq_some_iff] at h
      obtain ⟨ix, hix, rfl⟩ := h
      exact .inr ⟨hi, ix, hix, rfl⟩
    · next hi =>
      cases h
      exact .inl ⟨by simpa using hi, rfl⟩
  · cases h

/-- The members of an enum have well-formed literals. -/
theorem members_ok {ds : List Definition} (hwf : WellFormed ds) {name : Str} {as : List Assign}
    (hm : .type (.enum name as) ∈ ds) : ∀ a ∈ as, ∀ x ∈ a.value.atoms, x.Ok := by
  intro a ha x hx
  refine hwf x (List.mem_flatMap.2 ⟨_, hm, ?_⟩)
  simp only [Definition.atoms, TypeDef.atoms, enumAtoms, List.mem_cons, List.mem_flatMap]
  exact .inr (.inr ⟨a, ha, by simp [Assign.atoms, hx]⟩)

theorem pairwise_lt_nodup {ms : List (RIdent × Int)} (h : ms.Pairwise fun a b => a.2 < b.2) :
    (ms.map (·.2)).Nodup :=
  List.pairwise_map.2 (h.imp fun hab => by omega)

/-- `AsRef` and `TryFrom` over a list of members with different names and numbers. -/
theorem signed32Of_member {ms : List (RIdent × Int)} (hn : (ms.map (·.1)).Nodup)
    (hk : (ms.map (·.2)).Nodup) {i : Nat} {m : RIdent × Int} (hi : ms[i]? = some m)
    (hr : -2147483648 ≤ m.2 ∧ m.2 ≤ 2147483647) :
    let impl := signed32Of ms ms (ms.map fun m => (m.2, m.1))
    impl.as_ref (.variant i []) = Int32.ofInt m.2 ∧ impl.try_from (Int32.ofInt m.2) = .ok (.variant i []) := by
  have hm : m ∈ ms := List.mem_of_getElem? hi
  constructor
  · simp only [signed32Of, hi, Option.bind_some, arm_of_mem hn hm, Option.getD_some]
  · have hk' : ((ms.map fun m => (m.2, m.1)).map (·.1)).Nodup := by
      simpa [List.map_map, Function.comp_def] using hk
    simp only [signed32Of, toInt_ofInt hr]
    rw [arm_of_mem hk' (v := m.1) (List.mem_map.2 ⟨m, hm, rfl⟩)]
    simp only [variantPos_of hn hi]

theorem signed32Of_unknown {ms : List (RIdent × Int)} {j : Int32} (h : j.toInt ∉ ms.map (·.2)) :
    (signed32Of ms ms (ms.map fun m => (m.2, m.1))).try_from j = .err .convert := by
  have h' : j.toInt ∉ (ms.map fun m => (m.2, m.1)).map (·.1) := by
    simpa [List.map_map, Function.comp_def] using h
  simp only [signed32Of, arm_of_not_mem h']

/-- Names of items are different, so an enum is found by its name. -/
theorem enums_find {f : RustFile} (h : f.namesOk = true) {e : EnumItem} (he : .enum e ∈ f.types) :
    (f.enums.find? fun x => x.name = e.name) = some e := by
  have hnd := (namesOk_iff.1 h).1
  unfold RustFile.enums
  clear h
  generalize f.types = items at he hnd
  induction items with
  | nil => cases he
  | cons i is ih =>
    simp only [List.map_cons, List.nodup_cons] at hnd
    rcases List.mem_cons.1 he with rfl | he
    · simp
    · have hne : i.name.str ≠ e.name.str := fun e' => hnd.1 (List.mem_map.2 ⟨_, he, e'.symm⟩)
      have := ih he hnd.2
      cases i with
      | enum e' =>
        have hne' : e'.name ≠ e.name := fun e'' => hne (by simp only [Item.name, e''])
        simpa [hne'] using this
      | «alias» _ _ => simpa using this
      | struct _ => simpa using this
      | union _ => simpa using this

/-- `XdrIndexer` over a list of members with different names and numbers. -/
theorem enumIndexer_member {ms : List (RIdent × Int)} {otherwise : RIdent} (hn : (ms.map (·.1)).Nodup)
    (hk : (ms.map (·.2)).Nodup) {i : Nat} {m : RIdent × Int} (hi : ms[i]? = some m)
    (hr : -2147483648 ≤ m.2 ∧ m.2 ≤ 2147483647) :
    let impl := enumIndexerImpl ms { byIndex := ms.map fun m => (m.2, m.1), otherwise, index := ms }
    impl.index i [] = .ok (Int32.ofInt m.2) ∧ impl.name_by_index (Int32.ofInt m.2) = .ok m.1.str := by
  have hm : m ∈ ms := List.mem_of_getElem? hi
  constructor
  · simp only [enumIndexerImpl, hi, Option.bind_some, arm_of_mem hn hm]
  · have hk' : ((ms.map fun m => (m.2, m.1)).map (·.1)).Nodup := by
      simpa [List.map_map, Function.comp_def] using hk
    simp only [enumIndexerImpl, toInt_ofInt hr]
    rw [arm_of_mem hk' (v := m.1) (List.mem_map.2 ⟨m, hm, rfl⟩)]

/-- An enum with `XdrIndexer`, as the program has it. -/
theorem indexer_members {ds : List Definition} (hwf : WellFormed ds) {cfg : Config}
    (hc : cfg.enum_impl_indexer = true) {n : Nat} {file : RustFile}
    (hg : gen_code n ds cfg = .ok file) {defs : List (String × Def)} (hd : file.defs = some defs)
    {name : Str} {as : List Assign} {ks : List Int} (hm : .type (.enum name as) ∈ ds)
    (hnum : Numbered ds as ks) :
    ∃ (ms : List (RIdent × Int)) (e : EnumItem), .enum e ∈ file.types ∧
      upper_camel_case_ident name = .ok e.name ∧
      (∀ p ∈ as.zip ks, ∃ id, upper_camel_case_ident p.1.identifier = .ok id ∧ (id, p.2) ∈ ms) ∧
      (∀ m ∈ ms, ∃ a, (a, m.2) ∈ as.zip ks ∧ upper_camel_case_ident a.identifier = .ok m.1) ∧
      (ms.Pairwise fun a b => a.2 < b.2) ∧
      (∃ m, ms.head? = some m ∧ e.default = m.1) ∧
      Xdr.program defs e.name.str = some (.indexer (ms.map fun v => (v.1.str, none))
        (enumIndexerImpl ms { byIndex := ms.map fun m => (m.2, m.1), otherwise := e.default, index := ms })) ∧
      (ms.map (·.1.str)).Nodup := by
  obtain ⟨e, he, hmem⟩ := gen_code_enum hg hm
  obtain ⟨ms, h1, h2, h3, h4, -, -, -, h7, h8, h9, -, -, h12, -⟩ :=
    enum_members hwf (members_ok hwf hm) hnum.stands hnum.distinct hnum.range he
  have hv : e.variants = ms := h7 (by simp [Config.enum_complement_index, hc])
  rw [hc] at h9 h12
  simp only [if_true] at h12
  obtain ⟨d, hd1, hd2⟩ := defs_lookup hd hmem
  obtain ⟨hn, ⟨hx, -⟩ | ⟨-, ix, hix, rfl⟩⟩ := enum_meaning_ok hd1
  · rw [h9] at hx
    cases hx
  rw [h12] at hix
  cases hix
  rw [hv] at hd2 hn
  exact ⟨ms, e, hmem, h8, h1, h2, h3, h4, hd2, hn⟩

end Xdr.Rpcgen
