import Verif.RpcgenProofs.Gen
import Verif.Rpcgen.Meaning
import Verif.Spec.Classes
/-!
# Items of a generated file and the program they make
-/

namespace Xdr.Rpcgen

theorem types_token_all {cxt : Context} {n : Nat} {items : List Item} (h : types_token cxt n = .ok items)
    {name : Str} {d : TypeDef} (hm : (name, d) ∈ cxt.typedefs) :
    ∃ l, typeToken cxt n name d = .ok l ∧ ∀ item ∈ l, item ∈ items := by
  unfold types_token at h
  simp only [GR.bind_eq_ok, GR.ok.injEq] at h
  obtain ⟨ls, h1, rfl⟩ := h
  obtain ⟨l, hl, ht⟩ := forall₂_mem_left (GR.mapM_ok.1 h1) hm
  exact ⟨l, ht, fun item hi => List.mem_flatten.2 ⟨l, hl, hi⟩⟩

theorem mem_typedefs_enum {ds : List Definition} {cfg : Config} {name : Str} {as : List Assign}
    (h : .type (.enum name as) ∈ ds) : (name, .enum name as) ∈ (setup_context ds cfg).typedefs :=
  List.mem_filterMap.2 ⟨_, h, rfl⟩

theorem mem_typedefs_struct {ds : List Definition} {cfg : Config} {name : Str} {ms : List Declaration}
    (h : .type (.struct name ms) ∈ ds) : (name, .struct name ms) ∈ (setup_context ds cfg).typedefs :=
  List.mem_filterMap.2 ⟨_, h, rfl⟩

theorem mem_typedefs_union {ds : List Definition} {cfg : Config} {name : Str} {b : UnionBody}
    (h : .type (.union name b) ∈ ds) : (name, .union name b) ∈ (setup_context ds cfg).typedefs :=
  List.mem_filterMap.2 ⟨_, h, rfl⟩

theorem gen_code_enum {n : Nat} {ds : List Definition} {cfg : Config} {file : RustFile}
    (h : gen_code n ds cfg = .ok file) {name : Str} {as : List Assign}
    (hm : .type (.enum name as) ∈ ds) :
    ∃ e, convert_enum_token (setup_context ds cfg) n name as = .ok e ∧ .enum e ∈ file.types := by
  obtain ⟨l, hl, hall⟩ := types_token_all (gen_code_ok.1 h).2.1 (mem_typedefs_enum hm)
  simp only [typeToken, GR.bind_eq_ok, GR.ok.injEq] at hl
  obtain ⟨e, he, rfl⟩ := hl
  exact ⟨e, he, hall _ List.mem_cons_self⟩

theorem gen_code_struct {n : Nat} {ds : List Definition} {cfg : Config} {file : RustFile}
    (h : gen_code n ds cfg = .ok file) {name : Str} {ms : List Declaration}
    (hm : .type (.struct name ms) ∈ ds) :
    ∃ s, convert_struct_token (setup_context ds cfg) n name ms = .ok s ∧ .struct s ∈ file.types := by
  obtain ⟨l, hl, hall⟩ := types_token_all (gen_code_ok.1 h).2.1 (mem_typedefs_struct hm)
  simp only [typeToken, GR.bind_eq_ok, GR.ok.injEq] at hl
  obtain ⟨e, he, rfl⟩ := hl
  exact ⟨e, he, hall _ List.mem_cons_self⟩

theorem gen_code_union {n : Nat} {ds : List Definition} {cfg : Config} {file : RustFile}
    (h : gen_code n ds cfg = .ok file) {name : Str} {b : UnionBody}
    (hm : .type (.union name b) ∈ ds) :
    ∃ u, convert_union_token (setup_context ds cfg) n name b = .ok u ∧ .union u ∈ file.types := by
  obtain ⟨l, hl, hall⟩ := types_token_all (gen_code_ok.1 h).2.1 (mem_typedefs_union hm)
  simp only [typeToken, GR.bind_eq_ok, GR.ok.injEq] at hl
  obtain ⟨e, he, rfl⟩ := hl
  exact ⟨e, he, hall _ List.mem_cons_self⟩

theorem itemsMeaning_lookup {cs : List ConstItem} {enums : List EnumItem} {items : List Item}
    {l tail : List (String × Def)} (h : itemsMeaning cs enums items = some l)
    (hnd : (items.map (·.name.str)).Nodup) {item : Item} (hi : item ∈ items) :
    ∃ d, item.meaning cs enums = some d ∧ Xdr.program (l ++ tail) item.name.str = some d := by
  induction items generalizing l with
  | nil => cases hi
  | cons i is ih =>
    unfold itemsMeaning at h
    split at h
    · next d r hd hr =>
      cases h
      simp only [List.map_cons, List.nodup_cons] at hnd
      rcases List.mem_cons.1 hi with rfl | hi
      · exact ⟨d, hd, by simp [Xdr.program]⟩
      · obtain ⟨d', hd', hp⟩ := ih hr hnd.2 hi
        refine ⟨d', hd', ?_⟩
        have hne : i.name.str ≠ item.name.str := fun e => hnd.1 (List.mem_map.2 ⟨item, hi, e.symm⟩)
        simpa [Xdr.program, hne] using hp
    · cases h

theorem defs_ok {f : RustFile} {defs : List (String × Def)} (h : f.defs = some defs) :
    f.namesOk = true ∧ ∃ l, itemsMeaning f.constants f.enums f.types = some l ∧
      defs = l ++ [(variableArrayName, variableArrayDef)] := by
  unfold RustFile.defs at h
  split at h
  · next hn =>
    simp only [Option.map_eq_some_iff] at h
    obtain ⟨l, hl, rfl⟩ := h
    exact ⟨hn, l, hl, rfl⟩
  · cases h

theorem namesOk_iff {f : RustFile} : f.namesOk = true ↔
    (f.types.map (·.name.str)).Nodup ∧
    (∀ i ∈ f.types, i.name.usable = true ∧ i.name.name ∉ usedTypes) ∧
    (∀ i ∈ f.types, ∀ p ∈ i.paths, p ∈ f.types.map Item.name) ∧ constantsOk f.constants = true := by
  simp [RustFile.namesOk]

/-- The program of a generated file has each item under its name. -/
theorem defs_lookup {f : RustFile} {defs : List (String × Def)} (h : f.defs = some defs) {item : Item}
    (hi : item ∈ f.types) :
    ∃ d, item.meaning f.constants f.enums = some d ∧ Xdr.program defs item.name.str = some d := by
  obtain ⟨hn, l, hl, rfl⟩ := defs_ok h
  exact itemsMeaning_lookup hl (namesOk_iff.1 hn).1 hi

end Xdr.Rpcgen
