import Verif.Spec.Items
import Verif.RpcgenProofs.Variants
import Verif.RpcgenProofs.Enum
import Verif.Props.GenStruct
import Verif.Props.Ends
/-!
# Property C68: one Rust item per definition

The generated source has an item for every type of the interface, in its order, and no other items.
-/

namespace Xdr.Rpcgen

theorem enum_variants {c : Bool} {l : List (Int × Assign)} {s : Int}
    {steps : List (List (RIdent × Int) × RIdent × Int)} (h : enumLoop c l s = .ok steps) :
    ∃ ms res, (steps.flatMap fun st => st.1 ++ [st.2]).Perm (ms ++ res) ∧
      List.Forall₂ (fun (p : Int × Assign) (v : RIdent × Int) =>
        upper_camel_case_ident p.2.identifier = .ok v.1) l ms ∧
      ∀ r ∈ res, ∃ s, r.1 = ⟨false, c!"_Reserved" ++ s⟩ := by
  induction l generalizing s steps with
  | nil =>
    cases h
    exact ⟨[], [], by simp, .nil, by simp⟩
  | cons p l ih =>
    obtain ⟨e, a⟩ := p
    simp only [enumLoop, GR.bind_eq_ok] at h
    obtain ⟨r, hr, i, hi, h⟩ := h
    split at h
    · cases h
    · simp only [GR.bind_eq_ok, GR.ok.injEq] at h
      obtain ⟨rest, hrest, rfl⟩ := h
      obtain ⟨ms, res, h1, h2, h3⟩ := ih hrest
      refine ⟨(i, e) :: ms, r ++ res, ?_, .cons hi h2, ?_⟩
      · simp only [List.flatMap_cons, List.append_assoc, List.cons_append, List.nil_append]
        refine List.perm_middle.trans (List.Perm.cons _ ?_)
        refine (List.Perm.append_left r h1).trans ?_
        rw [← List.append_assoc, ← List.append_assoc]
        exact List.Perm.append_right _ List.perm_append_comm
      · intro x hx
        rcases List.mem_append.1 hx with hx | hx
        · split at hr
          · obtain ⟨j, -, hj⟩ := forall₂_mem_right (GR.mapM_ok.1 hr) hx
            simp only [GR.bind_eq_ok, GR.ok.injEq] at hj
            obtain ⟨q, hq, rfl⟩ := hj
            obtain ⟨h5, h6⟩ := reservedIdent_ok hq
            refine ⟨intToString j, ?_⟩
            cases q
            simp only at h5 h6
            rw [h5, h6]
          · cases hr
            cases hx
        · exact h3 x hx

theorem member_variants {cxt : Context} {n : Nat} {name : Str} {as : List Assign} {e : EnumItem}
    (h : convert_enum_token cxt n name as = .ok e) : MemberVariants as e.variants := by
  obtain ⟨indexed, steps, h1, -, h2, -, -, h3, -⟩ := convert_enum_ok h
  obtain ⟨ms, res, h4, h5, h6⟩ := enum_variants h2
  obtain ⟨ms', h7, h8⟩ := forall₂_perm h5 (sortByKey_perm indexed).symm
  refine ⟨ms', res, h3 ▸ h4.trans (List.Perm.append_right _ h8.symm), ?_, h6⟩
  have hm : indexed.map (·.2) = as := by
    have hf := GR.mapM_ok.1 h1
    clear h1 h7 h8 h5 h4 h2 h
    induction hf with
    | nil => rfl
    | cons h1 _ ih =>
      simp only [GR.bind_eq_ok, GR.ok.injEq] at h1
      obtain ⟨k, -, rfl⟩ := h1
      simp only [List.map_cons, ih]
  rw [← hm, List.forall₂_map_left_iff]
  exact h7

theorem typedefs_named (ds : List Definition) (cfg : Config) :
    (setup_context ds cfg).typedefs.map (·.2) = namedTypes ds ∧
    ∀ p ∈ (setup_context ds cfg).typedefs, p.2.name = some p.1 := by
  constructor
  · simp only [setup_context, namedTypes, List.map_filterMap]
    congr 1
    funext d
    cases d with
    | type t =>
      cases t with
      | declaration d =>
        simp only [TypeDef.name]
        by_cases h : d.name = none
        · simp [h]
        · obtain ⟨x, hx⟩ := Option.ne_none_iff_exists'.1 h
          simp [hx]
      | _ => rfl
    | _ => rfl
  · intro p hp
    obtain ⟨d, -, hd⟩ := List.mem_filterMap.1 hp
    cases d with
    | type t =>
      cases t with
      | declaration d =>
        simp only [Option.map_eq_some_iff] at hd
        obtain ⟨a, ha, rfl⟩ := hd
        exact ha
      | _ => cases hd; rfl
    | _ => cases hd

theorem items_of {ds : List Definition} {cfg : Config} {n : Nat} {name : Str} {t : TypeDef} (hn : t.name = some name)
    {l : List Item} (h : typeToken (setup_context ds cfg) n name t = .ok l) : ItemsOf ds cfg.remove_typedef t l := by
  cases t with
  | declaration d =>
    have hc : (setup_context ds cfg).config = cfg := rfl
    simp only [typeToken, hc] at h
    split at h
    · next hr =>
      cases h
      exact .removed hr
    · next hr =>
      simp only [GR.bind_eq_ok] at h
      obtain ⟨o, ho, ⟨ty, op⟩, hp, h⟩ := h
      cases o with
      | none => cases hp
      | some p =>
        cases hp
        simp only at h
        split at h
        · cases h
        · next hop =>
          simp only [ne_eq, Decidable.not_not] at hop
          subst hop
          simp only [GR.bind_eq_ok, GR.ok.injEq] at h
          obtain ⟨id, hid, rfl⟩ := h
          exact .alias (by simpa using hr) hn hid (decl_sound ho)
  | enum nm as =>
    cases hn
    simp only [typeToken, GR.bind_eq_ok, GR.ok.injEq] at h
    obtain ⟨e, he, rfl⟩ := h
    obtain ⟨_, _, -, h2, -⟩ := convert_enum_ok he
    exact .enum h2 (member_variants he)
  | struct nm ms =>
    cases hn
    simp only [typeToken, GR.bind_eq_ok, GR.ok.injEq] at h
    obtain ⟨e, he, rfl⟩ := h
    obtain ⟨h1, h2⟩ := convert_struct_ok he
    exact .struct h1 h2.length_eq.symm
  | union nm b =>
    cases hn
    simp only [typeToken, GR.bind_eq_ok, GR.ok.injEq] at h
    obtain ⟨e, he, rfl⟩ := h
    obtain ⟨_, _, _, h1, -⟩ := convert_union_ok he
    exact .union h1

/-- C68. The items of the generated source are those of the type definitions, one after the other; there
are no others. -/
theorem C68_items {n : Nat} {ds : List Definition} {cfg : Config} {file : RustFile}
    (hg : gen_code n ds cfg = .ok file) :
    ∃ parts, List.Forall₂ (ItemsOf ds cfg.remove_typedef) (namedTypes ds) parts ∧ file.types = parts.flatten := by
  obtain ⟨-, h, -⟩ := gen_code_ok.1 hg
  unfold types_token at h
  simp only [GR.bind_eq_ok, GR.ok.injEq] at h
  obtain ⟨ls, h1, h2⟩ := h
  refine ⟨ls, ?_, h2.symm⟩
  obtain ⟨h3, h4⟩ := typedefs_named ds cfg
  rw [← h3, List.forall₂_map_left_iff]
  have hf := GR.mapM_ok.1 h1
  revert hf h4
  generalize (setup_context ds cfg).typedefs = l
  intro h4 hf
  clear h1 h2 h3
  induction hf with
  | nil => exact .nil
  | cons h _ ih =>
    exact .cons (items_of (h4 _ List.mem_cons_self) h) (ih fun p hp => h4 p (List.mem_cons_of_mem _ hp))

/-- C68. Where typedefs are kept, a typedef of opaque data is an error: an alias cannot carry the attribute. -/
theorem C68_opaque_alias {n : Nat} {ds : List Definition} {cfg : Config} (hr : cfg.remove_typedef = false)
    {d : Declaration} (hm : .type (.declaration d) ∈ ds) {name : Str} (hname : d.name = some name) {ty : RTy}
    {op : OpaqueType} (ht : DeclType ds false d ty op) (hop : op ≠ .none) (file : RustFile) :
    gen_code n ds cfg ≠ .ok file := by
  intro hg
  obtain ⟨parts, h1, -⟩ := C68_items hg
  have hmem : TypeDef.declaration d ∈ namedTypes ds :=
    List.mem_filterMap.2 ⟨_, hm, by simp [TypeDef.name, hname]⟩
  obtain ⟨l, -, hl⟩ := forall₂_mem_left h1 hmem
  cases hl with
  | removed h => rw [hr] at h; cases h
  | «alias» _ _ _ h =>
    obtain ⟨m1, k1⟩ := DeclType.convert (cfg := cfg) h
    obtain ⟨m2, k2⟩ := DeclType.convert (cfg := cfg) (hr ▸ ht)
    have e1 := k1 (max m1 m2) (Nat.le_max_left _ _)
    rw [k2 (max m1 m2) (Nat.le_max_right _ _)] at e1
    cases e1
    exact hop rfl

/-! ## Cases -/

/-- `chain` has two typedefs and a struct; the source has the struct, or with typedefs kept all three. -/
example : ∃ file, gen_code 10 chain (Flags.config {}) = .ok file ∧
    ∃ parts, List.Forall₂ (ItemsOf chain true) (namedTypes chain) parts ∧ file.types = parts.flatten ∧
      parts.length = 3 ∧ file.types.length = 1 := by
  have hl : ∀ f, gen_code 10 chain (Flags.config {}) = .ok f → f.types.length = 1 := by
    intro f hf
    have e : (match gen_code 10 chain (Flags.config {}) with
      | .ok f => f.types.length
      | _ => 0) = 1 := by decide +kernel
    rw [hf] at e
    exact e
  obtain ⟨file, hf⟩ : ∃ file, gen_code 10 chain (Flags.config {}) = .ok file :=
    ⟨_, by set_option maxRecDepth 100000 in rfl⟩
  obtain ⟨parts, h1, h2⟩ := C68_items hf
  exact ⟨file, hf, parts, h1, h2, by rw [← h1.length_eq]; rfl, hl file hf⟩

example : ∃ file, gen_code 10 chain {} = .ok file ∧
    ∃ parts, List.Forall₂ (ItemsOf chain false) (namedTypes chain) parts ∧ file.types = parts.flatten ∧
      file.types.length = 3 := by
  have e : (match gen_code 10 chain {} with
    | .ok f => f.types.length
    | _ => 0) = 3 := by decide +kernel
  obtain ⟨file, hf⟩ : ∃ file, gen_code 10 chain {} = .ok file :=
    ⟨_, by set_option maxRecDepth 100000 in rfl⟩
  obtain ⟨parts, h1, h2⟩ := C68_items hf
  rw [hf] at e
  exact ⟨file, hf, parts, h1, h2, e⟩

/-- `typedef opaque key<8>;` with typedefs kept. -/
example (n : Nat) (file : RustFile) :
    gen_code n [.type (.declaration (.opaqueVariableArray c!"key" (some (.constant (.decimal c!"8")))))] {} ≠ .ok file :=
  C68_opaque_alias rfl List.mem_cons_self rfl .opaqueVar nofun file

end Xdr.Rpcgen
