import Verif.RpcgenProofs.Variants
import Verif.Props.GenEnum
import Verif.Props.GenUnion
/-!
# Property C66: the variants of a union

Every label of a case becomes a variant, under the name of the label and with the type of its arm; the
default arm becomes the last one. The claim fails for unions on `bool`, where labels other than the first
`FALSE` and the first `TRUE` are dropped without a word.
-/

namespace Xdr.Rpcgen

/-- C66. The variants of a generated union are one for each label of a case (the first `FALSE` and `TRUE`
for a union on `bool`), under the name of the label and with the type of the arm; reserved ones, where
positions are numbers; and at the end one for the default arm. -/
theorem C66_variants_partial {s : Str} {ds : List Definition} (hp : parse s = .ok ds) {n : Nat} {cfg : Config}
    {file : RustFile} (hg : gen_code n ds cfg = .ok file) {name : Str} {body : UnionBody}
    (hm : .type (.union name body) ∈ ds) :
    ∃ u cond nm ct cases vs res dflt, .union u ∈ file.types ∧ upper_camel_case_ident name = .ok u.name ∧
      body.cond = .variable cond nm ∧ CondType ds cfg.remove_typedef cond ct ∧
      u.variants = cases ++ dflt ∧ cases.Perm (vs ++ res) ∧
      List.Forall₂ (VariantOf ds cfg ct) body.used vs ∧
      (∀ r ∈ res, ReservedVariant r) ∧ (cfg.union_complement_index = false → res = []) ∧
      DefaultVariant ds cfg ct body.default dflt := by
  obtain ⟨u, hconv, hmem⟩ := gen_code_union hg hm
  obtain ⟨cond, acc, dflt, hname, hcases, hdflt, -, -, hvars, -⟩ := convert_union_ok hconv
  have hne := body_nonempty (wellFormed_parse hp) hm
  suffices H : ∃ nm ct vs res, body.cond = .variable cond nm ∧ CondType ds cfg.remove_typedef cond ct ∧
      acc.cond = some ct ∧ acc.variants.Perm (vs ++ res) ∧ List.Forall₂ (VariantOf ds cfg ct) body.used vs ∧
      (∀ r ∈ res, ReservedVariant r) ∧ (cfg.union_complement_index = false → res = []) by
    obtain ⟨nm, ct, vs, res, h1, h2, h3, h4, h5, h6, h7⟩ := H
    rw [h3] at hdflt
    exact ⟨u, cond, nm, ct, _, vs, res, _, hmem, hname, h1, h2, hvars, h4, h5, h6, h7, defaultVariant_of hdflt⟩
  unfold unionCases at hcases
  cases hb : body.cond with
  | «variable» ts nm =>
    rw [hb] at hcases
    have loop : ts ≠ .bool → (∃ values steps, unionIndexed (setup_context ds cfg) n body.specs = .ok values ∧
        unionLoop (setup_context ds cfg) n ts (sortByKey values) 0 = .ok steps ∧
        (ts, UnionAcc.ofSteps steps) = (cond, acc)) →
        ∃ nm' ct vs res, Declaration.variable ts nm = .variable cond nm' ∧ CondType ds cfg.remove_typedef cond ct ∧
        acc.cond = some ct ∧ acc.variants.Perm (vs ++ res) ∧ List.Forall₂ (VariantOf ds cfg ct) body.used vs ∧
        (∀ r ∈ res, ReservedVariant r) ∧ (cfg.union_complement_index = false → res = []) := by
      rintro hnb ⟨values, steps, h1, h2, h3⟩
      obtain ⟨rfl, rfl⟩ := Prod.mk.inj h3
      obtain ⟨ct, vs, res, h4, h5, h6, h7, h8, h9⟩ := loop_union hne h1 h2
      have hused : body.used = body.labels := by
        unfold UnionBody.used
        rw [hb]
        split
        · next h => cases h; exact absurd rfl hnb
        · rfl
      exact ⟨nm, ct, vs, res, rfl, h4, h5, h6, by rwa [hused], h8, h9⟩
    cases ts with
    | int sg =>
      simp only [GR.bind_eq_ok, GR.ok.injEq] at hcases
      obtain ⟨values, h1, steps, h2, h3⟩ := hcases
      exact loop nofun ⟨values, steps, h1, h2, h3⟩
    | identifier i =>
      simp only [GR.bind_eq_ok, GR.ok.injEq] at hcases
      obtain ⟨values, h1, steps, h2, h3⟩ := hcases
      exact loop nofun ⟨values, steps, h1, h2, h3⟩
    | bool =>
      simp only [GR.bind_eq_ok, GR.ok.injEq] at hcases
      obtain ⟨f, hf, t, ht, h3⟩ := hcases
      obtain ⟨rfl, rfl⟩ := Prod.mk.inj h3
      obtain ⟨fv, hf1, hf2, hf3⟩ := boolCase_variant hf
      obtain ⟨tv, ht1, ht2, ht3⟩ := boolCase_variant ht
      have hused : body.used = (body.labels.find? fun l => l.1.is_false).toList ++
          (body.labels.find? fun l => l.1.is_true).toList := by
        unfold UnionBody.used
        rw [hb]
        simp only [isFalse_iff, isTrue_iff]
      have hres : ∀ x ∈ boolReserved (setup_context ds cfg) c!"_Reserved0" ++
          boolReserved (setup_context ds cfg) c!"_Reserved1", ReservedVariant x := by
        intro x hx
        rcases List.mem_append.1 hx with hx | hx
        · exact boolReserved_variant (s := c!"0") hx
        · exact boolReserved_variant (s := c!"1") hx
      have hno : cfg.union_complement_index = false → ∀ s, boolReserved (setup_context ds cfg) s = [] := by
        intro h s
        have : (setup_context ds cfg).config.union_complement_index = false := h
        simp [boolReserved, this]
      refine ⟨nm, .bool, fv ++ tv,
        (if f.isSome then [] else boolReserved (setup_context ds cfg) c!"_Reserved0") ++
        (if t.isSome then [] else boolReserved (setup_context ds cfg) c!"_Reserved1"),
        rfl, .inl ⟨_, .bool⟩, rfl, ?_, ?_, ?_, ?_⟩
      · cases f with
        | none =>
          cases t with
          | none => simp [hf2 rfl, ht2 rfl]
          | some t => simp [hf2 rfl, ht1 t rfl, List.perm_append_comm]
        | some f =>
          cases t with
          | none => simp [hf1 f rfl, ht2 rfl]
          | some t => simp [hf1 f rfl, ht1 t rfl]
      · rw [hused]
        exact List.rel_append hf3 ht3
      · intro x hx
        refine hres x ?_
        rcases List.mem_append.1 hx with hx | hx
        · split at hx
          · cases hx
          · exact List.mem_append_left _ hx
        · split at hx
          · cases hx
          · exact List.mem_append_right _ hx
      · intro h
        simp [hno h]
    | _ => cases hcases
  | _ => rw [hb] at hcases; cases hcases

theorem find_label_eq {ls : List (Value × Declaration)} (hnd : (ls.map (·.1)).Nodup) {l : Value × Declaration}
    (hl : l ∈ ls) : (ls.find? fun x => decide (x.1 = l.1)) = some l := by
  obtain ⟨x, hx⟩ := Option.isSome_iff_exists.1 (List.find?_isSome (p := fun x : Value × Declaration => decide (x.1 = l.1)) |>.2
    ⟨l, hl, by simp⟩)
  rw [hx]
  have h1 := List.mem_of_find?_eq_some hx
  have h2 := List.find?_some hx
  exact congrArg some (List.inj_on_of_nodup_map hnd h1 hl (by simpa using h2))

/-- C66. No label is left out if the discriminant is a number, or if the labels of a union on `bool` are
`FALSE` and `TRUE`, each at most once. -/
theorem C66_all_labels {body : UnionBody}
    (h : ∀ nm, body.cond = .variable .bool nm → (body.labels.map (·.1)).Nodup ∧
      ∀ l ∈ body.labels, l.1 = .identifier c!"FALSE" ∨ l.1 = .identifier c!"TRUE") :
    body.used.Perm body.labels := by
  unfold UnionBody.used
  split
  · next nm hc =>
    obtain ⟨hnd, hl⟩ := h nm hc
    have key : ∀ x v, (body.labels.find? fun l => decide (l.1 = v)) = some x → x ∈ body.labels ∧ x.1 = v := by
      intro x v hx
      exact ⟨List.mem_of_find?_eq_some hx, by simpa using List.find?_some hx⟩
    rw [List.perm_ext_iff_of_nodup]
    · intro x
      simp only [List.mem_append, Option.mem_toList, Option.mem_def]
      constructor
      · rintro (hx | hx)
        · exact (key _ _ hx).1
        · exact (key _ _ hx).1
      · intro hx
        rcases hl x hx with h1 | h1
        · left
          rw [← h1]
          exact find_label_eq hnd hx
        · right
          rw [← h1]
          exact find_label_eq hnd hx
    · rw [List.nodup_append]
      refine ⟨by cases (body.labels.find? fun l => decide (l.1 = .identifier c!"FALSE")) <;> simp,
        by cases (body.labels.find? fun l => decide (l.1 = .identifier c!"TRUE")) <;> simp, ?_⟩
      intro a ha b hb hab
      simp only [Option.mem_toList, Option.mem_def] at ha hb
      have h1 := (key _ _ ha).2
      have h2 := (key _ _ hb).2
      rw [hab, h2] at h1
      exact absurd h1 (by decide)
    · exact List.Nodup.of_map _ hnd
  · exact List.Perm.refl _

/-! ## A case -/

/-- The union of `shapes` has four labels, and four variants besides the reserved ones. -/
example : ∃ file, gen_code 10 shapes (Flags.config {}) = .ok file ∧
    ∃ u ct cases vs res, .union u ∈ file.types ∧ u.variants = cases ++ [] ∧ cases.Perm (vs ++ res) ∧
      List.Forall₂ (VariantOf shapes (Flags.config {}) ct) shapeBody.labels vs ∧ vs.length = 4 := by
  obtain ⟨file, hg⟩ : ∃ file, gen_code 10 shapes (Flags.config {}) = .ok file :=
    ⟨_, by set_option maxRecDepth 100000 in rfl⟩
  refine ⟨file, hg, ?_⟩
  obtain ⟨u, cond, nm, ct, cases, vs, res, dflt, h1, -, -, -, h2, h3, h4, -, -, h5⟩ :=
    C66_variants_partial parse_shapes hg shape_mem
  cases h5
  exact ⟨u, ct, cases, vs, res, h1, h2, h3, h4, by rw [← h4.length_eq]; rfl⟩

/-- `union flag switch (bool b) { case TRUE: hyper a; case FALSE: void; };` -/
def flagBody : UnionBody := ⟨.variable .bool c!"b",
  [⟨[.identifier c!"TRUE"], .variable (.hyper true) c!"a"⟩, ⟨[.identifier c!"FALSE"], .void⟩], none⟩

example : flagBody.used.Perm flagBody.labels :=
  C66_all_labels fun _ _ => by
    simp [flagBody, UnionBody.labels, UnionBody.specs, CaseSpec.values, CaseSpec.declaration]

/-! ## The violation -/

/-- The definitions of `union u switch (bool b) { case 1: int a; default: void; };` -/
def numbered : List Definition := [.type (.union c!"u" ⟨.variable .bool c!"b",
  [⟨[.constant (.decimal c!"1")], .variable (.int true) c!"a"⟩], some .void⟩)]

theorem parse_numbered : parse c!"union u switch (bool b) { case 1: int a; default: void; };" = .ok numbered := by
  set_option maxRecDepth 100000 in rfl

/-- Only names as variants. -/
def namesOnly : GR RustFile → Bool
  | .ok f => f.types.all fun
    | .union u => u.variants.all fun v =>
      match v.name with
      | .ident _ => true
      | _ => false
    | _ => true
  | _ => false

/-- C66 fails: in a union on `bool` the label `1` and its arm are dropped, and the text is accepted. -/
theorem C66_dropped_violated : ∃ (s : Str) (ds : List Definition) (file : RustFile) (name : Str) (body : UnionBody)
    (l : Value × Declaration), parse s = .ok ds ∧ gen_code 10 ds (Flags.config {}) = .ok file ∧
    .type (.union name body) ∈ ds ∧ l ∈ body.labels ∧
    ∀ u, .union u ∈ file.types → ∀ v ∈ u.variants, ∀ ct, ¬ VariantOf ds (Flags.config {}) ct l v := by
  have hn : namesOnly (gen_code 10 numbered (Flags.config {})) = true := by decide +kernel
  obtain ⟨file, hg⟩ : ∃ file, gen_code 10 numbered (Flags.config {}) = .ok file :=
    ⟨_, by set_option maxRecDepth 100000 in rfl⟩
  refine ⟨_, numbered, file, c!"u", _, (.constant (.decimal c!"1"), .variable (.int true) c!"a"), parse_numbered, hg,
    List.mem_cons_self, List.mem_cons_self, ?_⟩
  intro u hu v hm ct h
  rw [hg] at hn
  have h1 := List.all_eq_true.1 (List.all_eq_true.1 hn _ hu) v hm
  have hname := h.name
  dsimp only at h1 hname
  generalize v.name = t at hname h1
  cases hname
  cases h1

end Xdr.Rpcgen
