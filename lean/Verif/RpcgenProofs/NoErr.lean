import Verif.Spec.Translatable
import Verif.RpcgenProofs.Safe
import Verif.RpcgenProofs.Outcome
import Verif.RpcgenProofs.Mono
import Verif.RpcgenProofs.Variants
import Verif.RpcgenProofs.UnionWire
import Verif.RpcgenProofs.Arms
import Verif.Props.Consts
import Verif.Props.GenStruct
/-!
# When the generator ends without an error
-/

namespace Xdr.Rpcgen

/-- The generator does not return an error. -/
def GR.NoErr {α : Type} (m : GR α) : Prop := ∀ e, m ≠ .err e

namespace GR.NoErr

theorem ok {α : Type} (a : α) : GR.NoErr (.ok a) := nofun
theorem panic {α : Type} (p : GenPanic) : GR.NoErr (.panic p : GR α) := nofun

theorem bind {α β : Type} {m : GR α} {f : α → GR β} (hm : m.NoErr) (hf : ∀ a, m = .ok a → (f a).NoErr) :
    (m.bind f).NoErr := by
  cases m with
  | ok a => exact hf a rfl
  | err e => exact absurd rfl (hm e)
  | panic p => exact nofun
  | depth => exact nofun

theorem mapM {α β : Type} {f : α → GR β} {l : List α} (h : ∀ a ∈ l, (f a).NoErr) : (GR.mapM f l).NoErr := by
  induction l with
  | nil => exact ok _
  | cons a l ih =>
    exact bind (h a List.mem_cons_self) fun _ _ => bind (ih fun x hx => h x (List.mem_cons_of_mem _ hx)) fun _ _ => ok _

theorem mkIdent (s : Str) : (mkIdent s).NoErr := by
  intro e h
  unfold Xdr.Rpcgen.mkIdent at h
  repeat' split at h
  all_goals cases h

/-- What is found with some bound is no error with any. -/
theorem of_le {α : Type} {f : Nat → GR α} (hle : ∀ n m, n ≤ m → GR.Le (f n) (f m)) {m : Nat} {a : α}
    (h : f m = .ok a) (n : Nat) : (f n).NoErr := by
  intro e he
  have h1 := (hle n (max n m) (Nat.le_max_left _ _)).eq (by rw [he]; exact nofun)
  have h2 := (hle m (max n m) (Nat.le_max_right _ _)).eq (by rw [h]; exact nofun)
  rw [h1, he, h] at h2
  cases h2

end GR.NoErr

variable {ds : List Definition} {cfg : Config}

theorem decl_noErr (hrt : cfg.remove_typedef = true) {d : Declaration}
    (h : d = .void ∨ ∃ ty op, DeclType ds true d ty op) (n : Nat) :
    (convert_type_token (setup_context ds cfg) n d).NoErr := by
  rcases h with rfl | ⟨ty, op, h⟩
  · cases n <;> exact nofun
  · obtain ⟨m, hm⟩ := (C52_expansion hrt d ty op).1 h
    exact GR.NoErr.of_le (f := fun n => convert_type_token (setup_context ds cfg) n d)
      (fun n m hnm => convert_type_le _ hnm d) (hm m (Nat.le_refl m)) n

theorem resolve_noErr (hwf : WellFormed ds) {t : IntTy} {v : Value} (hv : ValueOk v) {k : Int}
    (h : Outcome ds t.min t.max v (some k)) (n : Nat) : ((setup_context ds cfg).resolve_value t n v).NoErr := by
  obtain ⟨m, hm⟩ := resolve_of_outcome (cfg := cfg) hwf h hv
  have hm : (setup_context ds cfg).resolve_value t m v = .ok k := by
    revert hm
    cases (setup_context ds cfg).resolve_value t m v <;> simp [GR.outcome]
  exact GR.NoErr.of_le (f := fun n => (setup_context ds cfg).resolve_value t n v)
    (fun n m hnm => resolve_value_le _ t hnm v) hm n

theorem condType_noErr (n : Nat) (ts : TypeSpecifier) : (condType (setup_context ds cfg) n ts).NoErr := by
  unfold condType
  split
  · exact nofun
  · split
    · exact GR.NoErr.bind (GR.NoErr.mkIdent _) fun _ _ => GR.NoErr.ok _
    · exact nofun
  · exact nofun
  · exact nofun

theorem case_noErr (hrt : cfg.remove_typedef = true) {n : Nat} {v : Value} {d : Declaration} {ts : TypeSpecifier}
    (hv : ∀ c, v = .constant c → (c.value .u32).NoErr) (hd : d = .void ∨ ∃ ty op, DeclType ds true d ty op) :
    (convert_case_token (setup_context ds cfg) n v d ts).NoErr := by
  refine GR.NoErr.bind ?_ fun _ _ => GR.NoErr.bind (condType_noErr n ts) fun _ _ =>
    GR.NoErr.bind (decl_noErr hrt hd n) fun o _ => ?_
  · cases v with
    | constant c => exact GR.NoErr.bind (hv c rfl) fun _ _ => GR.NoErr.ok _
    | identifier i => exact GR.NoErr.bind (GR.NoErr.mkIdent _) fun _ _ => GR.NoErr.ok _
  · dsimp only
    split <;> split <;> exact GR.NoErr.ok _

theorem byValue_noErr {ts : TypeSpecifier} {k : Int} {v : Value} {t : Tok} :
    (caseByValue (setup_context ds cfg) ts k v t).NoErr := by
  unfold caseByValue
  split
  · split
    · refine GR.NoErr.bind (GR.NoErr.mkIdent _) fun _ _ => ?_
      split
      · exact GR.NoErr.bind (GR.NoErr.mkIdent _) fun _ _ => GR.NoErr.ok _
      · exact GR.NoErr.ok _
    · exact GR.NoErr.ok _
  · exact GR.NoErr.ok _

theorem unionLoop_noErr (hrt : cfg.remove_typedef = true) {n : Nat} {ts : TypeSpecifier}
    {l : List (Int × Declaration × Value)} (h : ∀ x ∈ l, (∀ c, x.2.2 = .constant c → (c.value .u32).NoErr) ∧
      (x.2.1 = .void ∨ ∃ ty op, DeclType ds true x.2.1 ty op)) (s : Int) :
    (unionLoop (setup_context ds cfg) n ts l s).NoErr := by
  induction l generalizing s with
  | nil => exact GR.NoErr.ok _
  | cons x l ih =>
    obtain ⟨k, d, v⟩ := x
    obtain ⟨h1, h2⟩ := h _ List.mem_cons_self
    refine GR.NoErr.bind ?_ fun _ _ => GR.NoErr.bind (case_noErr hrt h1 h2) fun _ _ =>
      GR.NoErr.bind byValue_noErr fun _ _ => ?_
    · split
      · exact GR.NoErr.mapM fun _ _ => GR.NoErr.bind (GR.NoErr.mkIdent _) fun _ _ => GR.NoErr.ok _
      · exact GR.NoErr.ok _
    · split
      · exact GR.NoErr.panic _
      · exact GR.NoErr.bind (ih (fun x hx => h x (List.mem_cons_of_mem _ hx)) _) fun _ _ => GR.NoErr.ok _

theorem boolCase_noErr (hrt : cfg.remove_typedef = true) {n : Nat} {b : UnionBody} {label : Value → Bool} {x : Bool}
    (hlab : ∀ v, label v = true → ∃ i, v = .identifier i)
    (h : ∀ l, (b.labels.find? fun l => label l.1) = some l → l.2 = .void ∨ ∃ ty op, DeclType ds true l.2 ty op) :
    (boolCase (setup_context ds cfg) n .bool b.specs label x).NoErr := by
  unfold boolCase
  split
  · exact GR.NoErr.ok _
  · next s hs =>
    split
    · exact GR.NoErr.panic _
    · next v hv =>
      refine GR.NoErr.bind (case_noErr hrt ?_ (h _ (find_label hs hv))) fun _ _ => GR.NoErr.ok _
      rintro c rfl
      obtain ⟨i, hi⟩ := hlab _ (List.find?_some hv)
      cases hi

theorem enumLoop_noErr {b : Bool} {l : List (Int × Assign)} (s : Int) : (enumLoop b l s).NoErr := by
  induction l generalizing s with
  | nil => exact GR.NoErr.ok _
  | cons x l ih =>
    obtain ⟨k, a⟩ := x
    refine GR.NoErr.bind ?_ fun _ _ => GR.NoErr.bind (GR.NoErr.mkIdent _) fun _ _ => ?_
    · split
      · exact GR.NoErr.mapM fun _ _ => GR.NoErr.bind (GR.NoErr.mkIdent _) fun _ _ => GR.NoErr.ok _
      · exact GR.NoErr.ok _
    · split
      · exact GR.NoErr.panic _
      · exact GR.NoErr.bind (ih _) fun _ _ => GR.NoErr.ok _

theorem enum_noErr (hwf : WellFormed ds) (hT : Translatable ds) {n : Nat} {e : Str} {as : List Assign}
    (hm : .type (.enum e as) ∈ ds) : (convert_enum_token (setup_context ds cfg) n e as).NoErr := by
  refine GR.NoErr.bind (GR.NoErr.mapM fun a ha => GR.NoErr.bind ?_ fun _ _ => GR.NoErr.ok _) fun _ _ =>
    GR.NoErr.bind (GR.NoErr.mkIdent _) fun _ _ => GR.NoErr.bind (enumLoop_noErr _) fun steps _ => ?_
  · obtain ⟨k, hk⟩ := hT.enums e as hm a ha
    refine resolve_noErr (t := .i32) hwf ?_ hk n
    intro c hc
    exact members_ok hwf hm a ha (.number c) (by simp [hc, Value.atoms])
  · split
    · exact GR.NoErr.panic _
    · exact GR.NoErr.ok _

theorem struct_noErr (hrt : cfg.remove_typedef = true) (hT : Translatable ds) {n : Nat} {s : Str}
    {ms : List Declaration} (hm : .type (.struct s ms) ∈ ds) :
    (convert_struct_token (setup_context ds cfg) n s ms).NoErr := by
  refine GR.NoErr.bind (GR.NoErr.mapM fun d hd => ?_) fun _ _ => GR.NoErr.bind (GR.NoErr.mkIdent _) fun _ _ =>
    GR.NoErr.ok _
  have hty := hT.members d ⟨s, ms, hm, hd⟩
  unfold convertField
  split
  · refine GR.NoErr.bind (decl_noErr hrt (.inr hty) n) fun o ho => ?_
    cases o with
    | none =>
      obtain ⟨ty, op, hty⟩ := hty
      obtain ⟨m, hm⟩ := (C52_expansion hrt d ty op).1 hty
      have h1 := (convert_type_le (setup_context ds cfg) (Nat.le_max_left n m) d).eq (by rw [ho]; exact nofun)
      rw [hm _ (Nat.le_max_right n m), ho] at h1
      cases h1
    | some p =>
      exact GR.NoErr.bind (GR.NoErr.ok _) fun _ _ => GR.NoErr.bind (GR.NoErr.mkIdent _) fun _ _ => GR.NoErr.ok _
  · exact GR.NoErr.panic _

theorem union_noErr (hwf : WellFormed ds) (hrt : cfg.remove_typedef = true) (hT : Translatable ds) {n : Nat} {u : Str}
    {b : UnionBody} (hm : .type (.union u b) ∈ ds) :
    (convert_union_token (setup_context ds cfg) n u b).NoErr := by
  refine GR.NoErr.bind (GR.NoErr.mkIdent _) fun _ _ => GR.NoErr.bind ?_ fun r _ => ?_
  · obtain ⟨ts, nm, hb, hsw⟩ := hT.conds u b hm
    have hval : ts ≠ .bool → ∀ v d, (v, d) ∈ b.labels → ∃ k, Outcome ds 0 4294967295 v (some k) := fun hts v d hl =>
      hT.labels u b ts nm hm hb hts (v, d) hl
    have hok : ∀ v d, (v, d) ∈ b.labels → ValueOk v := by
      intro v d hl c hc
      exact labels_ok hwf hm (v, d) hl (.number c) (by simp [hc, Value.atoms])
    have hloop : ts ≠ .bool → GR.NoErr ((unionIndexed (setup_context ds cfg) n b.specs).bind fun values =>
        (unionLoop (setup_context ds cfg) n ts (sortByKey values) 0).bind fun steps =>
        GR.ok (ts, UnionAcc.ofSteps steps)) := by
      intro hts
      have hmem : ∀ (d : Declaration) (v : Value),
          (d, v) ∈ (b.specs.flatMap fun spec => spec.values.map fun v => (spec.declaration, v)) → (v, d) ∈ b.labels := by
        intro d v h
        simp only [List.mem_flatMap, List.mem_map] at h
        obtain ⟨sp, hsp, w, hw, he⟩ := h
        cases he
        simp only [UnionBody.labels, List.mem_flatMap, List.mem_map]
        exact ⟨sp, hsp, v, hw, rfl⟩
      have hused : b.used = b.labels := by
        unfold UnionBody.used
        rw [hb]
        split
        · next h => cases h; exact absurd rfl hts
        · rfl
      refine GR.NoErr.bind (GR.NoErr.mapM fun a ha => ?_) fun ix hix => GR.NoErr.bind
        (unionLoop_noErr hrt (fun x hx => ?_) 0) fun _ _ => GR.NoErr.ok _
      · obtain ⟨d, v⟩ := a
        have hl := hmem d v ha
        obtain ⟨k, hk⟩ := hval hts v d hl
        exact GR.NoErr.bind (resolve_noErr (t := .u32) hwf (hok v d hl) hk n) fun _ _ => GR.NoErr.ok _
      · obtain ⟨⟨d, v⟩, ha, hr⟩ := forall₂_mem_right (GR.mapM_ok.1 hix) (mem_sortByKey.1 hx)
        simp only [GR.bind_eq_ok, GR.ok.injEq] at hr
        obtain ⟨k, hk, rfl⟩ := hr
        have hl := hmem d v ha
        refine ⟨?_, hT.arms u b hm (v, d) (by rw [hused]; exact hl)⟩
        rintro c rfl
        rw [resolve_value_lit] at hk
        rw [hk]
        exact GR.NoErr.ok _
    unfold unionCases
    rw [hb]
    cases hsw with
    | int sg => exact hloop nofun
    | name i => exact hloop nofun
    | bool =>
      have hused : b.used = (b.labels.find? fun l => l.1.is_false).toList ++
          (b.labels.find? fun l => l.1.is_true).toList := by
        unfold UnionBody.used
        rw [hb]
        simp only [isFalse_iff, isTrue_iff]
      refine GR.NoErr.bind (boolCase_noErr hrt ?_ fun l hl => hT.arms u b hm l ?_) fun _ _ =>
        GR.NoErr.bind (boolCase_noErr hrt ?_ fun l hl => hT.arms u b hm l ?_) fun _ _ => GR.NoErr.ok _
      · intro v hv
        rw [isFalse_iff] at hv
        exact ⟨_, of_decide_eq_true hv⟩
      · rw [hused, hl]
        simp
      · intro v hv
        rw [isTrue_iff] at hv
        exact ⟨_, of_decide_eq_true hv⟩
      · rw [hused, hl]
        simp
  · obtain ⟨ts, acc⟩ := r
    refine GR.NoErr.bind ?_ fun df _ => ?_
    · cases hb : b.default with
      | none => exact GR.NoErr.ok _
      | some d => exact GR.NoErr.bind (decl_noErr hrt (hT.defaults d ⟨u, b, hm, hb⟩) n) fun _ _ => GR.NoErr.ok _
    · split
      · exact GR.NoErr.panic _
      · exact GR.NoErr.ok _

/-- The generator has no error to report. -/
theorem gen_noErr (hwf : WellFormed ds) (hrt : cfg.remove_typedef = true) (hT : Translatable ds) (n : Nat) :
    (gen_code n ds cfg).NoErr := by
  refine GR.NoErr.bind ?_ fun _ _ => GR.NoErr.bind (GR.NoErr.bind (GR.NoErr.mapM ?_) fun _ _ => GR.NoErr.ok _)
    fun _ _ => GR.NoErr.ok _
  · rw [constants_token_eq]
    rcases constItems_eq fun a ha => atoms_constant hwf ha with ⟨-, cs, h1, -⟩ | ⟨⟨⟨name, v⟩, ha, hs⟩, -⟩
    · rw [h1]
      exact GR.NoErr.ok _
    · cases v with
      | identifier o => exact absurd trivial hs
      | constant c => exact absurd (hT.constants name c (mem_constants.1 ha)) hs
  · rintro ⟨name, td⟩ hmt
    obtain ⟨df, hdf, hx⟩ := List.mem_filterMap.1 hmt
    cases df with
    | type t =>
      cases t with
      | declaration d =>
        simp only [Option.map_eq_some_iff, Prod.mk.injEq] at hx
        obtain ⟨nm, hnm, rfl, rfl⟩ := hx
        have hcfg : (setup_context ds cfg).config = cfg := rfl
        simp only [typeToken, hcfg, hrt, if_true]
        exact GR.NoErr.ok _
      | enum e as =>
        simp only [Option.some.injEq, Prod.mk.injEq] at hx
        obtain ⟨rfl, rfl⟩ := hx
        exact GR.NoErr.bind (enum_noErr hwf hT hdf) fun _ _ => GR.NoErr.ok _
      | struct s ms =>
        simp only [Option.some.injEq, Prod.mk.injEq] at hx
        obtain ⟨rfl, rfl⟩ := hx
        exact GR.NoErr.bind (struct_noErr hrt hT hdf) fun _ _ => GR.NoErr.ok _
      | union u b =>
        simp only [Option.some.injEq, Prod.mk.injEq] at hx
        obtain ⟨rfl, rfl⟩ := hx
        exact GR.NoErr.bind (union_noErr hwf hrt hT hdf) fun _ _ => GR.NoErr.ok _
    | constant _ => simp at hx
    | lineComment => simp at hx
    | program _ => simp at hx

end Xdr.Rpcgen
