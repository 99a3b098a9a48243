import Verif.RpcgenProofs.Sort
import Verif.RpcgenProofs.Gen
import Verif.RpcgenProofs.Number
import Verif.RpcgenProofs.Resolve
import Verif.Spec.XdrPrint
import Mathlib.Data.List.Induction
/-!
# Generated enums
-/

namespace Xdr.Rpcgen

/-- The literal a value stands for is well formed, as all the file's literals are. -/
theorem denotes_text {ds : List Definition} (hwf : WellFormed ds) {v : Value} {c : Constant}
    (h : Denotes ds v c) (hv : ∀ a ∈ v.atoms, a.Ok) : ∃ s, ConstantText c s := by
  induction h with
  | literal c => exact hv (.number c) (by simp [Value.atoms])
  | @name nm v c hl _ ih =>
    apply ih
    intro a ha
    unfold lookup at hl
    rw [Option.or_eq_some_iff] at hl
    rcases hl with hl | ⟨-, hl⟩
    · obtain ⟨d, hd, hx⟩ := List.exists_of_findSome?_eq_some hl
      cases d with
      | constant b =>
        by_cases hb : b.identifier = nm
        · simp only [hb, if_true, Option.some.injEq] at hx
          subst hx
          exact hwf a (List.mem_flatMap.2 ⟨_, hd, by simp [Definition.atoms, Assign.atoms, ha]⟩)
        · simp [hb] at hx
      | type _ => simp at hx
      | lineComment => simp at hx
      | program _ => simp at hx
    · obtain ⟨d, hd, hx⟩ := List.exists_of_findSome?_eq_some hl
      cases d with
      | type t =>
        cases t with
        | enum e members =>
          simp only [Option.map_eq_some_iff] at hx
          obtain ⟨b, hb, rfl⟩ := hx
          have hm := List.mem_of_find?_eq_some hb
          refine hwf a (List.mem_flatMap.2 ⟨_, hd, ?_⟩)
          simp only [Definition.atoms, TypeDef.atoms, enumAtoms, List.mem_cons, List.mem_flatMap]
          exact .inr (.inr ⟨b, hm, by simp [Assign.atoms, ha]⟩)
        | declaration _ => simp at hx
        | struct _ _ => simp at hx
        | union _ _ => simp at hx
      | constant _ => simp at hx
      | lineComment => simp at hx
      | program _ => simp at hx

/-- What resolving finds is the number the value stands for. -/
theorem resolve_stands {ds : List Definition} (hwf : WellFormed ds) {cfg : Config} {t : IntTy} {n : Nat}
    {v : Value} {k k' : Int} (hv : ∀ a ∈ v.atoms, a.Ok) (hk : Stands ds v k) (hmin : t.min ≤ k)
    (hmax : k ≤ t.max) (h : (setup_context ds cfg).resolve_value t n v = .ok k') : k' = k := by
  obtain ⟨c, hc, rfl⟩ := hk
  obtain ⟨s, hs⟩ := denotes_text hwf hc hv
  have hw : c.value t = .ok c.number := by
    unfold Constant.value
    rw [tryInto_eq hs t, if_pos ⟨hmin, hmax⟩]
    rfl
  obtain ⟨m, hm⟩ := resolve_denotes (cfg := cfg) hc hw
  have h1 := resolve_value_mono (cxt := setup_context ds cfg) (t := t) (n := n) (v := v) (by rw [h]; simp)
    (Nat.le_max_left n m)
  have h2 := resolve_value_mono (cxt := setup_context ds cfg) (t := t) (n := m) (v := v) (by rw [hm]; simp)
    (Nat.le_max_right n m)
  rw [h1, h] at h2
  rw [hm] at h2
  cases h2
  rfl

/-- The members' numbers, in the order of the file. -/
theorem enumIndexed_numbers {ds : List Definition} (hwf : WellFormed ds) {cfg : Config} {n : Nat}
    {as : List Assign} {indexed : List (Int × Assign)} {ks : List Int}
    (hok : ∀ a ∈ as, ∀ x ∈ a.value.atoms, x.Ok)
    (hks : List.Forall₂ (fun (a : Assign) k => Stands ds a.value k) as ks)
    (hr : ∀ k ∈ ks, IntTy.i32.min ≤ k ∧ k ≤ IntTy.i32.max)
    (h : enumIndexed (setup_context ds cfg) n as = .ok indexed) : indexed = ks.zip as := by
  have hf := GR.mapM_ok.1 h
  clear h
  induction hks generalizing indexed with
  | nil =>
    cases hf
    rfl
  | @cons a k as ks hak _ ih =>
    cases hf with
    | cons h1 h2 =>
      simp only [GR.bind_eq_ok, GR.ok.injEq] at h1
      obtain ⟨k', hk', rfl⟩ := h1
      have := resolve_stands hwf (hok a List.mem_cons_self) hak (hr k List.mem_cons_self).1
        (hr k List.mem_cons_self).2 hk'
      subst this
      rw [List.zip_cons_cons,
        ih (fun a ha => hok a (List.mem_cons_of_mem _ ha)) (fun k hk => hr k (List.mem_cons_of_mem _ hk)) h2]

/-- What each turn of the loop pushes. -/
theorem enumLoop_ok {c : Bool} {l : List (Int × Assign)} {s : Int}
    {steps : List (List (RIdent × Int) × RIdent × Int)} (h : enumLoop c l s = .ok steps) :
    List.Forall₂ (fun p st => upper_camel_case_ident p.2.identifier = .ok st.2.1 ∧ st.2.2 = p.1 ∧
      p.1 + 1 ≤ IntTy.i32.max ∧ (c = false → st.1 = [])) l steps := by
  induction l generalizing s steps with
  | nil =>
    cases h
    exact .nil
  | cons p l ih =>
    obtain ⟨e, a⟩ := p
    simp only [enumLoop, GR.bind_eq_ok] at h
    obtain ⟨r, hr, i, hi, h⟩ := h
    split at h
    · cases h
    · next hmax =>
      simp only [GR.bind_eq_ok, GR.ok.injEq] at h
      obtain ⟨rest, hrest, rfl⟩ := h
      refine .cons ⟨hi, rfl, by omega, ?_⟩ (ih hrest)
      rintro rfl
      cases hr
      rfl

/-- Complemented variants are numbered consecutively. -/
theorem enumLoop_consecutive {l : List (Int × Assign)} {s : Int}
    {steps : List (List (RIdent × Int) × RIdent × Int)} (h : enumLoop true l s = .ok steps)
    (hsort : l.Pairwise fun a b => a.1 < b.1) (hge : ∀ p ∈ l, s ≤ p.1) :
    Consecutive s ((steps.flatMap fun st => st.1 ++ [st.2]).map (·.2)) := by
  induction l generalizing s steps with
  | nil =>
    cases h
    exact consecutive_nil _
  | cons p l ih =>
    obtain ⟨e, a⟩ := p
    simp only [enumLoop, GR.bind_eq_ok, if_true] at h
    obtain ⟨r, hr, i, hi, h⟩ := h
    split at h
    · cases h
    · next hmax =>
      simp only [GR.bind_eq_ok, GR.ok.injEq] at h
      obtain ⟨rest, hrest, rfl⟩ := h
      obtain ⟨h1, h2⟩ := List.pairwise_cons.1 hsort
      have hrest := ih hrest h2 (fun p hp => by have := h1 p hp; simp only at this; omega)
      have hse : s ≤ e := hge _ List.mem_cons_self
      have hrs : r.map (·.2) = intRange s e := by
        have hf := GR.mapM_ok.1 hr
        clear hr
        generalize intRange s e = q at hf
        induction hf with
        | nil => rfl
        | cons hx _ ihx =>
          simp only [GR.bind_eq_ok, GR.ok.injEq] at hx
          obtain ⟨_, _, rfl⟩ := hx
          simp [ihx]
      simp only [List.flatMap_cons, List.map_append, hrs, List.map_cons, List.map_nil]
      rw [List.append_assoc]
      refine (consecutive_intRange s e).append ?_
      rw [intRange_length]
      have : s + ((e - s).toNat : Int) = e := by omega
      rw [this]
      refine (consecutive_singleton e).append ?_
      simpa using hrest

/-- The same when the first member is below the start. -/
theorem enumLoop_consecutive_neg {e : Int} {a : Assign} {l : List (Int × Assign)} {s : Int}
    {steps : List (List (RIdent × Int) × RIdent × Int)} (h : enumLoop true ((e, a) :: l) s = .ok steps)
    (hsort : ((e, a) :: l).Pairwise fun a b => a.1 < b.1) (hlt : e ≤ s) :
    Consecutive e ((steps.flatMap fun st => st.1 ++ [st.2]).map (·.2)) := by
  simp only [enumLoop, GR.bind_eq_ok, if_true] at h
  obtain ⟨r, hr, i, hi, h⟩ := h
  have hempty : intRange s e = [] := by
    unfold intRange
    rw [show (e - s).toNat = 0 by omega]
    rfl
  rw [hempty] at hr
  cases hr
  split at h
  · cases h
  · simp only [GR.bind_eq_ok, GR.ok.injEq] at h
    obtain ⟨rest, hrest, rfl⟩ := h
    obtain ⟨h1, h2⟩ := List.pairwise_cons.1 hsort
    have := enumLoop_consecutive hrest h2 (fun p hp => by have := h1 p hp; simp only at this; omega)
    simp only [List.flatMap_cons, List.map_append, List.map_cons, List.map_nil, List.nil_append]
    refine (consecutive_singleton e).append ?_
    simpa using this

/-- In a consecutive list a number's position is the number less the start. -/
theorem Consecutive.pos {β : Type} {vs : List (β × Int)} {s : Int} (h : Consecutive s (vs.map (·.2)))
    {v : β × Int} (hv : v ∈ vs) : s ≤ v.2 ∧ vs[(v.2 - s).toNat]? = some v := by
  obtain ⟨i, hi⟩ := List.mem_iff_getElem?.1 hv
  have := h i v.2 (by simp [hi])
  refine ⟨by omega, ?_⟩
  rw [show (v.2 - s).toNat = i by omega]
  exact hi

/-- Each turn of the loop pushes its member last. -/
theorem steps_last {steps : List (List (RIdent × Int) × RIdent × Int)} {v : RIdent × Int}
    (h : (steps.flatMap fun st => st.1 ++ [st.2]).getLast? = some v) : v ∈ steps.map (·.2) := by
  induction steps using List.reverseRecOn with
  | nil => simp at h
  | append_singleton l st _ =>
    simp only [List.flatMap_append, List.flatMap_cons, List.flatMap_nil, List.append_nil] at h
    rw [← List.append_assoc, List.getLast?_concat] at h
    cases h
    simp

/-- The members of a generated enum: by number, each with the Rust name and number of a member of the
XDR enum. -/
theorem enum_members {ds : List Definition} (hwf : WellFormed ds) {cfg : Config} {n : Nat} {name : Str}
    {as : List Assign} {ks : List Int} {e : EnumItem}
    (hok : ∀ a ∈ as, ∀ x ∈ a.value.atoms, x.Ok)
    (hks : List.Forall₂ (fun (a : Assign) k => Stands ds a.value k) as ks) (hnd : ks.Nodup)
    (hr : ∀ k ∈ ks, IntTy.i32.min ≤ k ∧ k ≤ IntTy.i32.max)
    (h : convert_enum_token (setup_context ds cfg) n name as = .ok e) :
    ∃ ms : List (RIdent × Int),
      (∀ p ∈ as.zip ks, ∃ id, upper_camel_case_ident p.1.identifier = .ok id ∧ (id, p.2) ∈ ms) ∧
      (∀ m ∈ ms, ∃ a, (a, m.2) ∈ as.zip ks ∧ upper_camel_case_ident a.identifier = .ok m.1) ∧
      (ms.Pairwise fun a b => a.2 < b.2) ∧
      (∃ m, ms.head? = some m ∧ e.default = m.1) ∧
      (∀ m ∈ ms, m ∈ e.variants) ∧
      (cfg.enum_complement_index = true → (∀ k ∈ ks, 0 ≤ k) → Consecutive 0 (e.variants.map (·.2))) ∧
      (cfg.enum_complement_index = true → ∀ m ∈ ms, m.2 + 1 ≤ IntTy.i32.max) ∧
      (cfg.enum_complement_index = false → e.variants = ms) ∧
      upper_camel_case_ident name = .ok e.name ∧
      e.deriveIndexer = cfg.enum_impl_indexer ∧
      e.asRef = (if cfg.enum_impl_std_trait then some ms else none) ∧
      e.tryFrom = (if cfg.enum_impl_std_trait then some (ms.map fun m => (m.2, m.1)) else none) ∧
      e.indexer = (if cfg.enum_impl_indexer then some {
        byIndex := ms.map fun m => (m.2, m.1), otherwise := e.default, index := ms } else none) ∧
      (∀ v, e.variants.getLast? = some v → v ∈ ms) := by
  obtain ⟨indexed, steps, h1, h2, h3, ⟨st, hst, hdef⟩, h4, h5, h6, h7, h8⟩ := convert_enum_ok h
  have hidx := enumIndexed_numbers hwf hok hks hr h1
  subst hidx
  have hlen := hks.length_eq
  have hkeys : ((ks.zip as).map (·.1)).Nodup := by
    rw [List.map_fst_zip (by omega)]
    exact hnd
  have hstrict := sortByKey_strict hkeys
  have hf := enumLoop_ok h3
  have hzip : ∀ (k : Int) (a : Assign), (k, a) ∈ sortByKey (ks.zip as) ↔ (a, k) ∈ as.zip ks := by
    intro k a
    rw [mem_sortByKey, List.mem_iff_getElem?, List.mem_iff_getElem?]
    simp only [List.getElem?_zip_eq_some]
    exact exists_congr fun i => and_comm
  have hcfg : (setup_context ds cfg).config = cfg := rfl
  rw [hcfg] at h4 h6 h7 h8
  refine ⟨steps.map (fun (st : List (RIdent × Int) × RIdent × Int) => st.2), ?_, ?_, ?_, ?_, ?_, ?_, ?_, ?_, h2, h4, h6, ?_, ?_, ?_⟩
  · rintro ⟨a, k⟩ hp
    obtain ⟨st, hst, hid, hk, -⟩ := forall₂_mem_left hf ((hzip k a).2 hp)
    exact ⟨st.2.1, hid, List.mem_map.2 ⟨st, hst, by
      simp only at hk
      rw [← hk]⟩⟩
  · rintro m hm
    obtain ⟨st, hst, rfl⟩ := List.mem_map.1 hm
    obtain ⟨⟨k, a⟩, hp, hid, hk, -⟩ := forall₂_mem_right hf hst
    exact ⟨a, (hzip _ _).1 (by rw [hk]; exact hp), hid⟩
  · have : steps.map (·.2.2) = (sortByKey (ks.zip as)).map (·.1) := by
      clear h5 h6 h7 h8 hst hdef h3 hstrict hzip
      generalize sortByKey (ks.zip as) = srt at hf
      induction hf with
      | nil => rfl
      | cons hx _ ih => simp [hx.2.1, ih]
    have h' : ((sortByKey (ks.zip as)).map (·.1)).Pairwise (· < ·) := List.pairwise_map.2 hstrict
    rw [← this] at h'
    rw [List.pairwise_map]
    exact List.pairwise_map.1 h'
  · exact ⟨st.2, by simp [hst], hdef⟩
  · rintro m hm
    obtain ⟨st, hst, rfl⟩ := List.mem_map.1 hm
    rw [h5]
    exact List.mem_flatMap.2 ⟨st, hst, by simp⟩
  · intro hc hpos
    have hc' : (setup_context ds cfg).config.enum_complement_index = true := hc
    rw [hc'] at h3
    rw [h5]
    refine enumLoop_consecutive h3 hstrict ?_
    rintro ⟨k, a⟩ hp
    exact hpos k (List.of_mem_zip ((hzip k a).1 hp)).2
  · rintro - m hm
    obtain ⟨st, hst, rfl⟩ := List.mem_map.1 hm
    obtain ⟨⟨k, a⟩, hp, hid, hk, hmax, -⟩ := forall₂_mem_right hf hst
    rw [hk]
    exact hmax
  · intro hc
    have hc' : (setup_context ds cfg).config.enum_complement_index = false := hc
    rw [h5]
    rw [hc'] at hf
    clear h5 h6 h7 h8 hst hdef h3 hstrict hzip
    generalize sortByKey (ks.zip as) = srt at hf
    induction hf with
    | nil => rfl
    | cons hx _ ih => simp [hx.2.2.2, ih]
  · rw [h7]
    simp [List.map_map, Function.comp_def]
  · rw [h8]
    simp [List.map_map, Function.comp_def]
  · intro v hv
    rw [h5] at hv
    exact steps_last hv

/-- With a negative member, the variants are numbered consecutively from the least one. -/
theorem enum_consecutive_neg {ds : List Definition} (hwf : WellFormed ds) {cfg : Config} {n : Nat} {name : Str}
    {as : List Assign} {ks : List Int} {e : EnumItem}
    (hok : ∀ a ∈ as, ∀ x ∈ a.value.atoms, x.Ok)
    (hks : List.Forall₂ (fun (a : Assign) k => Stands ds a.value k) as ks) (hnd : ks.Nodup)
    (hr : ∀ k ∈ ks, IntTy.i32.min ≤ k ∧ k ≤ IntTy.i32.max)
    (h : convert_enum_token (setup_context ds cfg) n name as = .ok e)
    (hc : cfg.enum_complement_index = true) {k : Int} (hk : k ∈ ks) (hneg : k < 0) :
    ∃ lo ∈ ks, lo < 0 ∧ (∀ k ∈ ks, lo ≤ k) ∧ Consecutive lo (e.variants.map (·.2)) := by
  obtain ⟨indexed, steps, h1, -, h3, -, -, h5, -⟩ := convert_enum_ok h
  have hidx := enumIndexed_numbers hwf hok hks hr h1
  subst hidx
  have hlen := hks.length_eq
  have hfst : (ks.zip as).map (·.1) = ks := List.map_fst_zip (by omega)
  have hstrict := sortByKey_strict (by rw [hfst]; exact hnd)
  have hmem : ∀ j ∈ ks, ∃ a, (j, a) ∈ sortByKey (ks.zip as) := by
    intro j hj
    rw [← hfst] at hj
    obtain ⟨⟨_, a⟩, hp, rfl⟩ := List.mem_map.1 hj
    exact ⟨a, mem_sortByKey.2 hp⟩
  have hback : ∀ p ∈ sortByKey (ks.zip as), p.1 ∈ ks := by
    intro p hp
    rw [← hfst]
    exact List.mem_map.2 ⟨p, mem_sortByKey.1 hp, rfl⟩
  have hc' : (setup_context ds cfg).config.enum_complement_index = true := hc
  rw [hc'] at h3
  rw [h5]
  cases hs : sortByKey (ks.zip as) with
  | nil =>
    obtain ⟨a, ha⟩ := hmem k hk
    rw [hs] at ha
    cases ha
  | cons p l =>
    obtain ⟨lo, a⟩ := p
    rw [hs] at h3 hstrict hmem hback
    have hle : ∀ j ∈ ks, lo ≤ j := by
      intro j hj
      obtain ⟨b, hb⟩ := hmem j hj
      rcases List.mem_cons.1 hb with hb | hb
      · cases hb
        exact Int.le_refl _
      · have := (List.pairwise_cons.1 hstrict).1 _ hb
        simp only at this
        omega
    have := hle k hk
    exact ⟨lo, hback _ List.mem_cons_self, by omega, hle, enumLoop_consecutive_neg h3 hstrict (by omega)⟩

end Xdr.Rpcgen
