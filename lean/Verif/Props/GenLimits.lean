import Verif.Props.EndToEnd
import Verif.RpcgenProofs.Bounds
import Verif.RpcgenProofs.Safe
/-!
# Properties C56 and C57: declared maximum lengths, and panics of the generator
-/

namespace Xdr.Rpcgen

open Rfc (XVal)

/-! ## C56: maximum lengths -/

/-- C56 (what holds instead). The generated code does not depend on the maximum lengths: with any other
ones, or none, it is the same. -/
theorem C56_dropped (f : Option Value → Option Value) (n : Nat) (ds : List Definition) (cfg : Config) :
    gen_code n (ds.map (Definition.rebound f)) cfg = gen_code n ds cfg := gen_rebound n ds cfg

/-- The file without its maximum lengths. -/
def unbounded (ds : List Definition) : List Definition := ds.map (Definition.rebound fun _ => none)

theorem unbounded_decl (d : Declaration) : ∀ a ∈ (d.rebound fun _ => none).atoms, a ∈ d.atoms := by
  intro a ha
  cases d <;> simp_all [Declaration.rebound, Declaration.atoms, optAtoms]
  tauto

theorem unbounded_atoms (ds : List Definition) : ∀ a ∈ atoms (unbounded ds), a ∈ atoms ds := by
  intro a ha
  simp only [atoms, unbounded, List.mem_flatMap, List.mem_map] at ha ⊢
  obtain ⟨_, ⟨d, hd, rfl⟩, ha⟩ := ha
  refine ⟨d, hd, ?_⟩
  cases d with
  | type t =>
    cases t with
    | declaration d => exact unbounded_decl d a ha
    | enum e as => exact ha
    | struct s ms =>
      simp only [Definition.rebound, TypeDef.rebound, Definition.atoms, TypeDef.atoms, List.mem_cons,
        List.length_map, declsAtoms_mem, List.mem_map] at ha ⊢
      rcases ha with ha | ha | ⟨_, ⟨d, hd, rfl⟩, ha⟩
      · exact .inl ha
      · exact .inr (.inl ha)
      · exact .inr (.inr ⟨d, hd, unbounded_decl d a ha⟩)
    | union u b =>
      obtain ⟨cond, specs, dflt⟩ := b
      have e1 : (UnionBody.mk cond specs dflt).rebound (fun _ => none) =
        UnionBody.mk cond (specs.map (CaseSpec.rebound fun _ => none))
          (dflt.map (Declaration.rebound fun _ => none)) := rfl
      simp only [Definition.rebound, TypeDef.rebound, Definition.atoms, TypeDef.atoms, e1, UnionBody.atoms,
        List.mem_cons, List.length_map, List.mem_append, casesAtoms_mem, List.mem_map] at ha ⊢
      rcases ha with ha | ha | (ha | ⟨_, ⟨sp, hsp, rfl⟩, ha⟩) | ha
      · exact .inl ha
      · exact .inr (.inl ha)
      · exact .inr (.inr (.inl (.inl ha)))
      · refine .inr (.inr (.inl (.inr ⟨sp, hsp, ?_⟩)))
        obtain ⟨vs, d⟩ := sp
        have e2 : (CaseSpec.mk vs d).rebound (fun _ => none) = CaseSpec.mk vs (d.rebound fun _ => none) := rfl
        rw [e2] at ha
        simp only [CaseSpec.atoms, List.mem_cons, List.mem_append] at ha ⊢
        rcases ha with ha | ha | ha
        · exact .inl ha
        · exact .inr (.inl ha)
        · exact .inr (.inr (unbounded_decl d a ha))
      · refine .inr (.inr (.inr ?_))
        cases dflt with
        | none => exact ha
        | some d => exact unbounded_decl d a ha
  | constant _ => exact ha
  | lineComment => exact ha
  | program _ => exact ha

/-- C56 is false of the code, for every interface and every length: the generated code writes and reads
each value the file would have without its maximum lengths. -/
theorem C56_any_length_violated {n : Nat} {s : Str} {flags : Flags} {file : RustFile}
    (h : run n s flags = .printed file) {defs : List (String × Def)} (hd : file.defs = some defs) :
    ∃ ds, parse s = .ok ds ∧ (Supported (unbounded ds) flags.config →
      ∀ dflt t name x, .type t ∈ unbounded ds → t.name = some name → (∀ d, t ≠ .declaration d) →
        (∀ e as, t = .enum e as → flags.use_std_trait = true → Positional (unbounded ds) as) →
        (dflt = true → flags.use_union = true) → Defined (unbounded ds) dflt t x →
        ∃ ty, upper_camel_case_ident name = .ok ty ∧ Conforms (Xdr.program defs) ty.str x) := by
  obtain ⟨ds, hp, hg⟩ := run_ok h
  refine ⟨ds, hp, fun hok dflt t name x ht hname hnd hpos hdf hx => ?_⟩
  have hwf : WellFormed (unbounded ds) := fun a ha => wellFormed_parse hp a (unbounded_atoms ds a ha)
  have hg' : gen_code n (unbounded ds) flags.config = .ok file := by
    rw [unbounded, C56_dropped, hg]
  exact conforms_of_gen hwf hg' hd hok dflt t name x ht hname hnd hpos hdf hx

/-- The smallest case. -/
def atMostTwo : List Definition :=
  [.type (.struct c!"s" [.variableArray (.int true) c!"a" (some (.constant (.decimal c!"2")))])]

theorem parse_atMostTwo : parse c!"struct s { int a<2>; };" = .ok atMostTwo := by
  set_option maxRecDepth 100000 in rfl

theorem supported_atMostTwo (flags : Flags) : Supported (unbounded atMostTwo) flags.config where
  unambiguous := ⟨by decide +kernel, by decide +kernel⟩
  enums e as h := by simp [unbounded, atMostTwo, Definition.rebound, TypeDef.rebound] at h
  positions _ d name e as _ _ ht := by
    have hm := (typeOf_mem ht).1
    simp [unbounded, atMostTwo, Definition.rebound, TypeDef.rebound] at hm
  arrays ts nm m h := by
    have : ts = .int true := by
      rcases h with h | ⟨s, ms, h, hd⟩ | ⟨u, b, v, h, hd⟩ | ⟨u, b, h, hd⟩ <;>
        simp [unbounded, atMostTwo, TypedefIn, Definition.rebound, TypeDef.rebound] at h
      obtain ⟨rfl, rfl⟩ := h
      simp [Declaration.rebound] at hd
      exact hd.1
    subst this
    exact .inr (not_opaque (by simp) (by simp) (fun _ _ h => by cases h))
  unions u b h := by simp [unbounded, atMostTwo, Definition.rebound, TypeDef.rebound] at h
  arms _ d h := by
    obtain ⟨u, b, v, h, hd⟩ := h
    simp [unbounded, atMostTwo, Definition.rebound, TypeDef.rebound] at h
  defaults _ d h := by
    obtain ⟨u, b, h, hd⟩ := h
    simp [unbounded, atMostTwo, Definition.rebound, TypeDef.rebound] at h

/-- C56 is false: `int a<2>` is written and read with any number of elements. -/
theorem C56_violated : ∃ file defs, run 2 c!"struct s { int a<2>; };" {} = .printed file ∧
    file.defs = some defs ∧ ∀ ks : List Int, ks.length < 2 ^ 32 →
      (∀ k ∈ ks, -2147483648 ≤ k ∧ k ≤ 2147483647) →
      Conforms (Xdr.program defs) "S" (.struct [.arrayVar (ks.map .int)]) := by
  obtain ⟨file, defs, hr, hd⟩ := run_accepted (n := 2) (flags := {}) parse_atMostTwo (by decide +kernel)
  refine ⟨file, defs, hr, hd, fun ks hl hk => ?_⟩
  obtain ⟨ds, hp, key⟩ := C56_any_length_violated hr hd
  rw [parse_atMostTwo] at hp
  cases hp
  have heach : ∀ ks : List Int, (∀ k ∈ ks, -2147483648 ≤ k ∧ k ≤ 2147483647) →
      Each (unbounded atMostTwo) false (.int true) (ks.map .int) := by
    intro ks hk
    induction ks with
    | nil => exact .nil
    | cons k ks ih =>
      obtain ⟨h1, h2⟩ := hk k List.mem_cons_self
      exact .cons (.int h1 h2) (ih fun x hx => hk x (List.mem_cons_of_mem _ hx))
  obtain ⟨ty, hty, h⟩ := key (supported_atMostTwo _) false
    (.struct c!"s" [.variableArray (.int true) c!"a" none]) c!"s" (.struct [.arrayVar (ks.map .int)])
    (by simp [unbounded, atMostTwo, Definition.rebound, TypeDef.rebound, Declaration.rebound]) rfl (by simp)
    (by simp) (by simp)
    (.struct (.cons (.variableArray (by simpa using hl) (by simp) (heach ks hk)) .nil))
  cases GR.ok.inj hty
  exact h

/-- Three elements, where two are allowed. -/
example : ∃ file defs, run 2 c!"struct s { int a<2>; };" {} = .printed file ∧ file.defs = some defs ∧
    Conforms (Xdr.program defs) "S" (.struct [.arrayVar [.int 1, .int 2, .int 3]]) := by
  obtain ⟨file, defs, h1, h2, h3⟩ := C56_violated
  exact ⟨file, defs, h1, h2, h3 [1, 2, 3] (by decide) (by decide)⟩

/-! ## C57: panics -/

/-- C57 (in part). For a file in which no name lacks a letter, no member of a structure is `void` or named
like a path keyword of Rust, no union on `bool` lacks arms, and no number is an extreme one (`Tame`),
`gen_code` does not panic, whatever the configuration. -/
theorem C57_no_panic_partial {s : Str} {ds : List Definition} (hp : parse s = .ok ds) {cfg : Config}
    (ht : Tame ds cfg) (n : Nat) : ∀ p, gen_code n ds cfg ≠ .panic p :=
  gen_safe (wellFormed_parse hp) ht n

/-- For the example: the conditions on numbers hold if no number of the file is negative or large. -/
theorem ends_number {ds : List Definition} {v : Value} {c : Constant} (h : Ends ds v c)
    (hv : ∀ a ∈ v.atoms, a ∈ atoms ds) : .number c ∈ atoms ds := by
  induction h with
  | literal c => exact hv _ (by simp [Value.atoms])
  | const hl _ ih => exact ih fun a ha => constOf_atoms hl ha
  | member hl _ ih => exact ih fun a ha => memberOf_atoms hl ha

/-- Every name of the example has a letter first, every number is small. -/
def Atom.tame : Atom → Bool
  | .ident s => (match s.dropWhile (· = '_') with | c :: _ => isAlpha c | [] => false)
  | .number c => decide (0 ≤ c.number ∧ c.number < 2147483647)
  | _ => true

theorem catalogue_atoms : ∀ a ∈ atoms catalogue, a.tame = true := by decide +kernel

theorem tame_catalogue (cfg : Config) : Tame catalogue cfg where
  names s h := by
    have := catalogue_atoms _ h
    unfold Atom.tame at this
    simp only at this
    split at this
    · next c cs hc => exact ⟨c, cs, hc, this⟩
    · cases this
  members s ms h d hd := by
    simp [catalogue] at h
    obtain ⟨rfl, rfl⟩ := h
    have : ∀ d ∈ catalogueEntry, (∃ f ∈ d.name, f ∉ pathWords) := by decide
    obtain ⟨f, h1, h2⟩ := this d hd
    exact ⟨f, h1, h2⟩
  bools u b nm h hc := by
    simp [catalogue] at h
    obtain ⟨rfl, rfl⟩ := h
    cases hc
  enums e as h a ha c hc := by
    have := catalogue_atoms _ (ends_number hc fun x hx => mem_atoms_member h ha (by simp [Assign.atoms, hx]))
    simp only [Atom.tame, decide_eq_true_eq] at this
    exact ⟨by omega, fun _ _ => this.1⟩
  labels u b h l hl c hc := by
    simp only [UnionBody.labels, List.mem_flatMap, List.mem_map] at hl
    obtain ⟨sp, hsp, v, hv, rfl⟩ := hl
    have := catalogue_atoms _ (ends_number hc fun x hx => mem_atoms_case h hsp (spec_case_atoms hv hx))
    simp only [Atom.tame, decide_eq_true_eq] at this
    omega

example (cfg : Config) (n : Nat) : ∀ p, gen_code n catalogue cfg ≠ .panic p :=
  C57_no_panic_partial parse_catalogue (tame_catalogue cfg) n

/-- The text is accepted by the parser, and translating it panics at any depth, with any configuration. -/
def Panics (s : Str) (p : GenPanic) : Prop :=
  ∃ ds, parse s = .ok ds ∧ ∀ n cfg, gen_code (n + 1) ds cfg = .panic p

/-- C57 is false: a `void` member of a structure. -/
theorem C57_void_member_violated : Panics c!"struct s { void; };" .unwrapNone :=
  ⟨_, rfl, fun _ _ => rfl⟩

/-- A union on `bool` whose labels are other than `TRUE` and `FALSE`. -/
theorem C57_bool_union_violated : Panics c!"union u switch (bool b) { case true: int i; };" .unwrapNone :=
  ⟨_, rfl, fun _ _ => rfl⟩

/-- A name that is nothing but underscores. -/
theorem C57_underscore_violated : Panics c!"struct __ { int i; };" (.badIdent []) :=
  ⟨_, rfl, fun _ _ => rfl⟩

/-- A name whose first letter or digit is a digit. -/
theorem C57_digit_violated : Panics c!"struct _1 { int i; };" (.badIdent c!"1") :=
  ⟨_, rfl, fun _ _ => rfl⟩

/-- Members named like the path keywords of Rust. -/
theorem C57_path_words_violated : ∀ w ∈ pathWords,
    Panics (c!"struct s { int " ++ w ++ c!"; };") (.badIdent (c!"r#" ++ w.map toLower)) := by
  intro w hw
  simp only [pathWords, List.mem_cons, List.not_mem_nil, or_false] at hw
  rcases hw with rfl | rfl | rfl | rfl <;> exact ⟨_, rfl, fun _ _ => rfl⟩

/-- An enum with the largest number of its type (with overflow checks, as in debug builds). -/
theorem C57_enum_max_violated : ∃ ds, parse c!"enum e { A = 0x7fffffff };" = .ok ds ∧
    ∀ n cfg, cfg.enum_impl_indexer = true ∨ cfg.enum_impl_std_trait = true →
      gen_code n ds cfg = .panic .overflow := by
  refine ⟨_, rfl, fun n cfg h => ?_⟩
  obtain ⟨rt, ei, es, ui, uu⟩ := cfg
  cases ei <;> cases es <;> first | (rcases h with h | h <;> cases h; done) | rfl

/-- A union with the largest label (likewise). -/
theorem C57_label_max_violated : ∃ ds,
    parse c!"union u switch (unsigned int k) { case 0xffffffff: void; };" = .ok ds ∧
    ∀ n cfg, cfg.union_impl_indexer = true ∨ cfg.union_impl_union = true →
      gen_code (n + 1) ds cfg = .panic .overflow := by
  refine ⟨_, rfl, fun n cfg h => ?_⟩
  obtain ⟨rt, ei, es, ui, uu⟩ := cfg
  cases ui <;> cases uu <;> first | (rcases h with h | h <;> cases h; done) | rfl

/-- A gap between negative numbers of an enum. -/
theorem C57_negative_violated : ∃ ds, parse c!"enum e { A = -5, B = -3 };" = .ok ds ∧
    ∀ n cfg, cfg.enum_impl_indexer = false → cfg.enum_impl_std_trait = false →
      gen_code n ds cfg = .panic (.badIdent c!"_Reserved-4") := by
  refine ⟨_, rfl, fun n cfg h1 h2 => ?_⟩
  obtain ⟨rt, ei, es, ui, uu⟩ := cfg
  cases h1
  cases h2
  rfl

end Xdr.Rpcgen
