import Verif.RpcgenProofs.CleanTypes
import Verif.RpcgenProofs.TextMeaning
import Verif.RpcgenProofs.Scoped
import Verif.Props.Items
/-!
# Names of a file whose source compiles
-/

namespace Xdr.Rpcgen

/-! ## Identifiers -/

theorem camel_plain {a : Str} {i : RIdent} (h : upper_camel_case_ident a = .ok i) :
    i = ⟨false, upper_camel_case a⟩ := by
  unfold upper_camel_case_ident at h
  rcases mkIdent_ok h with ⟨-, h2⟩ | ⟨h1, h2⟩
  · exfalso
    have := camel_head (s := a) (c := 'r') (by rw [h2]; rfl)
    exact absurd this (by decide)
  · cases i
    simp only at h1 h2
    rw [h1, h2]

theorem camel_reserved {a : Str} (h : rust_reserved (upper_camel_case a) = true) :
    upper_camel_case a = c!"Self" := by
  have hk : ∀ k ∈ KEYWORDS_RUST, (k = c!"Self") ∨ ∃ c s, k = c :: s ∧ isLower c = true := by
    have : (KEYWORDS_RUST.all fun k => decide (k = c!"Self") || (k.head?.map isLower).getD false) = true := by
      decide +kernel
    intro k hk
    have := List.all_eq_true.1 this k hk
    simp only [Bool.or_eq_true, decide_eq_true_eq] at this
    rcases this with h | h
    · exact .inl h
    · cases k with
      | nil => cases h
      | cons c s => exact .inr ⟨c, s, rfl, h⟩
  unfold rust_reserved at h
  rcases hk _ (List.contains_iff_mem.1 h) with h1 | ⟨c, s, h1, h2⟩
  · exact h1
  · have := camel_head (s := a) (c := c) (by rw [h1]; rfl)
    rw [h2] at this
    cases this

theorem camel_usable {a : Str} {i : RIdent} (h : upper_camel_case_ident a = .ok i)
    (hs : upper_camel_case a ≠ c!"Self") : i.usable = true := by
  rw [camel_plain h]
  have h1 : rust_reserved (upper_camel_case a) = false := by
    cases hr : rust_reserved (upper_camel_case a) with
    | false => rfl
    | true => exact absurd (camel_reserved hr) hs
  have h2 : upper_camel_case a ≠ c!"_" := fun h => upper_camel_case_no a (by rw [h]; exact List.mem_cons_self)
  simp [RIdent.usable, h1, h2]

theorem reserved_usable (k : Int) : RIdent.usable ⟨false, c!"_Reserved" ++ intToString k⟩ = true := by
  have h1 : rust_reserved (c!"_Reserved" ++ intToString k) = false := by
    have : (KEYWORDS_RUST.all fun k => k.head? != some '_') = true := by decide +kernel
    cases hr : rust_reserved (c!"_Reserved" ++ intToString k) with
    | false => rfl
    | true =>
      unfold rust_reserved at hr
      have := List.all_eq_true.1 this _ (List.contains_iff_mem.1 hr)
      simp at this
  have h2 : c!"_Reserved" ++ intToString k ≠ c!"_" := by simp
  unfold RIdent.usable
  rw [h1]
  simpa using h2

theorem intToString_inj {a b : Int} (h : intToString a = intToString b) : a = b := by
  have hv : ∀ n : Nat, digitsValue (digitsFuel (n + 1) n) = n := fun n => digitsValue_digits (by omega)
  have hd : ∀ (n : Nat) (s : Str), digitsFuel (n + 1) n ≠ '-' :: s := by
    intro n s h
    have := digits_digit (f := n + 1) (n := n) '-' (by rw [h]; exact List.mem_cons_self)
    exact absurd this (by decide)
  unfold intToString at h
  split at h
  · split at h
    · have := congrArg digitsValue (List.cons.inj h).2
      rw [hv, hv] at this
      omega
    · exact absurd h.symm (hd _ _)
  · split at h
    · exact absurd h (hd _ _)
    · have := congrArg digitsValue h
      rw [hv, hv] at this
      omega

theorem plain_str {r s : Str} : (RIdent.mk false r).str = (RIdent.mk false s).str ↔ r = s := by
  constructor
  · intro h
    exact String.ofList_injective h
  · rintro rfl
    rfl

theorem reserved_str {j k : Int} (h : (RIdent.mk false (c!"_Reserved" ++ intToString j)).str =
    (RIdent.mk false (c!"_Reserved" ++ intToString k)).str) : j = k :=
  intToString_inj (List.append_cancel_left (plain_str.1 h))

theorem reserved_camel {k : Int} {a : Str} : (RIdent.mk false (c!"_Reserved" ++ intToString k)).str ≠
    (RIdent.mk false (upper_camel_case a)).str := by
  intro h
  have := plain_str.1 h
  exact upper_camel_case_no a (by rw [← this]; exact List.mem_cons_self)

theorem nodup_by {α β γ : Type} {f : α → β} {g : α → γ} {l : List α} (hg : (l.map g).Nodup)
    (h : ∀ x ∈ l, ∀ y ∈ l, f x = f y → g x = g y) : (l.map f).Nodup :=
  (List.Nodup.of_map g hg).map_on fun x hx y hy he => List.inj_on_of_nodup_map hg hx hy (h x hx y hy he)

/-! ## Items -/

theorem items_itemNames {ds : List Definition} {t : TypeDef} {l : List Item} (h : ItemsOf ds true t l) :
    l.map Item.name = (t.itemName.toList.map upper_camel_case).map (RIdent.mk false) := by
  cases h with
  | enum h _ => simp [TypeDef.itemName, Item.name, camel_plain h]
  | struct h _ => simp [TypeDef.itemName, Item.name, camel_plain h]
  | union h => simp [TypeDef.itemName, Item.name, camel_plain h]
  | removed _ => rfl
  | «alias» h => cases h

theorem namedTypes_itemNames (ds : List Definition) :
    (namedTypes ds).flatMap (fun t => t.itemName.toList) = itemNames ds := by
  unfold namedTypes itemNames
  rw [List.flatMap_def, List.map_filterMap]
  induction ds with
  | nil => rfl
  | cons d ds ih =>
    rw [List.filterMap_cons, List.filterMap_cons]
    cases d with
    | type t =>
      cases t with
      | declaration d =>
        by_cases h : (TypeDef.declaration d).name.isSome = true
        · simp only [h, if_true, Option.map_some, TypeDef.itemName, Option.toList_none, List.flatten_cons,
            List.nil_append]
          exact ih
        · simp only [h]
          exact ih
      | _ => exact congrArg (List.cons _) ih
    | _ => exact ih

theorem file_names {n : Nat} {ds : List Definition} {cfg : Config} (hr : cfg.remove_typedef = true) {file : RustFile}
    (hg : gen_code n ds cfg = .ok file) :
    file.types.map Item.name = ((itemNames ds).map upper_camel_case).map (RIdent.mk false) := by
  obtain ⟨parts, h1, h2⟩ := C68_items hg
  rw [hr] at h1
  rw [h2, ← namedTypes_itemNames]
  generalize namedTypes ds = ts at h1
  clear h2
  induction h1 with
  | nil => rfl
  | cons h _ ih =>
    simp only [List.flatten_cons, List.flatMap_cons, List.map_append, ih, items_itemNames h]

/-- The item of a type the file defines. -/
theorem item_exists {n : Nat} {ds : List Definition} {cfg : Config} (hr : cfg.remove_typedef = true) {file : RustFile}
    (hg : gen_code n ds cfg = .ok file) {name : Str} {t : TypeDef} (ht : typeOf ds name = some t)
    (hn : t.itemName = some name) {i : RIdent} (hi : upper_camel_case_ident name = .ok i) :
    i ∈ file.types.map Item.name := by
  rw [file_names hr hg, camel_plain hi]
  refine List.mem_map_of_mem (List.mem_map_of_mem ?_)
  exact List.mem_filterMap.2 ⟨_, (typeOf_mem ht).1, hn⟩

/-- Which definition an item comes from. -/
theorem item_origin {n : Nat} {ds : List Definition} {cfg : Config} (hr : cfg.remove_typedef = true) {file : RustFile}
    (hg : gen_code n ds cfg = .ok file) {item : Item} (hi : item ∈ file.types) :
    (∃ name as e, .type (.enum name as) ∈ ds ∧ item = .enum e ∧
      convert_enum_token (setup_context ds cfg) n name as = .ok e) ∨
    (∃ name ms s, .type (.struct name ms) ∈ ds ∧ item = .struct s ∧
      convert_struct_token (setup_context ds cfg) n name ms = .ok s) ∨
    (∃ name b u, .type (.union name b) ∈ ds ∧ item = .union u ∧
      convert_union_token (setup_context ds cfg) n name b = .ok u) := by
  obtain ⟨name, d, l, hd, hl, hm⟩ := types_token_mem (gen_code_ok.1 hg).2.1 hi
  have h := typeToken_item hl hm
  have hc : (setup_context ds cfg).config = cfg := rfl
  have hin : .type d ∈ ds ∧ d.name = some name := by
    refine ⟨?_, (typedefs_named ds cfg).2 _ hd⟩
    obtain ⟨x, hx, hxe⟩ := List.mem_filterMap.1 hd
    cases x with
    | type t =>
      cases t with
      | declaration d =>
        simp only [Option.map_eq_some_iff, Prod.mk.injEq] at hxe
        obtain ⟨_, _, _, rfl⟩ := hxe
        exact hx
      | _ =>
        cases hxe
        exact hx
    | _ => cases hxe
  cases d with
  | declaration d =>
    cases item with
    | «alias» _ _ =>
      simp only [hc] at h
      rw [hr] at h
      cases h
    | _ => exact h.elim
  | enum nm as =>
    cases hin.2
    cases item with
    | enum e => exact .inl ⟨_, as, e, hin.1, rfl, h⟩
    | _ => exact h.elim
  | struct nm as =>
    cases hin.2
    cases item with
    | struct e => exact .inr (.inl ⟨_, as, e, hin.1, rfl, h⟩)
    | _ => exact h.elim
  | union nm as =>
    cases hin.2
    cases item with
    | union e => exact .inr (.inr ⟨_, as, e, hin.1, rfl, h⟩)
    | _ => exact h.elim

/-- The names of the items can stand. -/
theorem clean_names {n : Nat} {ds : List Definition} {cfg : Config} (hc : Clean ds cfg)
    (hr : cfg.remove_typedef = true) {file : RustFile} (hg : gen_code n ds cfg = .ok file) :
    (file.types.map (·.name.str)).Nodup ∧
    ∀ i ∈ file.types, i.name.usable = true ∧ i.name.name ∉ usedTypes := by
  have hn := file_names hr hg
  constructor
  · have : file.types.map (·.name.str) = (file.types.map Item.name).map RIdent.str := by
      rw [List.map_map]
      rfl
    rw [this, hn, List.map_map]
    exact hc.types.map fun a b h => plain_str.1 h
  · intro i hi
    have : i.name ∈ file.types.map Item.name := List.mem_map_of_mem hi
    rw [hn, List.map_map] at this
    obtain ⟨name, hname, he⟩ := List.mem_map.1 this
    obtain ⟨h1, h2⟩ := hc.shadow name hname
    rw [← he]
    refine ⟨?_, h2⟩
    have h3 : rust_reserved (upper_camel_case name) = false := by
      cases hr : rust_reserved (upper_camel_case name) with
      | false => rfl
      | true => exact absurd (camel_reserved hr) h1
    have h4 : upper_camel_case name ≠ c!"_" := fun h => upper_camel_case_no name (by rw [h]; exact List.mem_cons_self)
    simp [RIdent.usable, h3, h4]

end Xdr.Rpcgen
