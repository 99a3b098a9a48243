import Verif.Spec.Consts
import Verif.RpcgenProofs.EndToEnd
import Verif.RpcgenProofs.Safe
import Verif.Rpcgen.Main
import Verif.Props.Numbers
import Verif.Props.GenEnum
import Verif.RpcgenProofs.Union
/-!
# Property C65: constants

Every `const` of the interface becomes a Rust constant of that name and number.
-/

namespace Xdr.Rpcgen

theorem mkIdent_plain {s : Str} (h : Ident s) : mkIdent s = .ok ⟨false, s⟩ := by
  obtain ⟨i, hi⟩ := mkIdent_ident h
  rcases mkIdent_ok hi with ⟨h1, h2⟩ | ⟨h1, h2⟩
  · have := ident_words h '#' (by rw [h2]; simp)
    exact absurd this (by decide)
  · rw [hi]
    cases i
    cases h1
    cases h2
    rfl

theorem constants_pairs (ds : List Definition) (cfg : Config) :
    (setup_context ds cfg).constants = (constants ds).map fun a => (a.identifier, a.value) := by
  simp only [setup_context, constants, List.map_filterMap]
  congr 1
  funext d
  cases d <;> rfl

theorem mem_constants {ds : List Definition} {a : Assign} : a ∈ constants ds ↔ .constant a ∈ ds := by
  simp only [constants, List.mem_filterMap]
  constructor
  · rintro ⟨d, hd, h⟩
    cases d with
    | constant b => cases h; exact hd
    | _ => cases h
  · intro h
    exact ⟨_, h, rfl⟩

/-- One constant, as the generator declares it. -/
def constItem (a : Assign) : GR ConstItem :=
  (mkIdent a.identifier).bind fun name_ident =>
    match convert_value_token .u32 a.value false with
    | .ok v => .ok ⟨name_ident, .u32, v⟩
    | .err _ => (convert_value_token .u64 a.value false).bind fun v => .ok ⟨name_ident, .u64, v⟩
    | .panic p => .panic p
    | .depth => .depth

theorem constants_mapM_map {α β γ : Type} (f : β → GR γ) (g : α → β) (l : List α) :
    GR.mapM f (l.map g) = GR.mapM (fun a => f (g a)) l := by
  induction l with
  | nil => rfl
  | cons a l ih => simp only [List.map_cons, GR.mapM, ih]

theorem constants_token_eq (ds : List Definition) (cfg : Config) :
    constants_token (setup_context ds cfg) = GR.mapM constItem (constants ds) := by
  unfold constants_token
  rw [constants_pairs, constants_mapM_map]
  rfl

theorem atoms_constant {ds : List Definition} (hwf : WellFormed ds) {a : Assign} (h : a ∈ constants ds) :
    Ident a.identifier ∧ ∀ x ∈ a.value.atoms, x.Ok := by
  rw [mem_constants] at h
  exact ⟨hwf (.ident a.identifier) (mem_atoms_def h (by simp [Definition.atoms, Assign.atoms])),
    fun x hx => hwf x (mem_atoms_def h (by simp [Definition.atoms, Assign.atoms, hx]))⟩

/-- A literal is in the range of the constants Rust can declare. -/
def Value.Small : Value → Prop
  | .constant c => 0 ≤ c.number ∧ c.number < 2 ^ 64
  | .identifier _ => True

theorem constItem_eq {a : Assign} (hi : Ident a.identifier) (hv : ∀ x ∈ a.value.atoms, x.Ok) :
    (a.value.Small ∧ ∃ c, constItem a = .ok c ∧ DeclaredAs a c) ∨ (¬ a.value.Small ∧ ∃ e, constItem a = .err e) := by
  obtain ⟨name, v⟩ := a
  simp only [constItem, mkIdent_plain hi, GR.bind]
  cases v with
  | identifier o =>
    refine .inl ⟨trivial, ?_⟩
    simp only [convert_value_token, Bool.false_eq_true, if_false, GR.bind,
      mkIdent_plain (hv (.ident o) (by simp [Value.atoms]))]
    exact ⟨_, rfl, .name⟩
  | constant c =>
    obtain ⟨s, hs⟩ : ∃ s, ConstantText c s := hv (.number c) (by simp [Value.atoms])
    have e32 := C38_value hs .u32
    have e64 := C38_value hs .u64
    simp only [convert_value_token, Value.Small]
    by_cases h0 : IntTy.u32.low ≤ c.number ∧ c.number ≤ IntTy.u32.high
    · rw [if_pos h0] at e32
      simp only [IntTy.low, IntTy.high] at h0
      rw [e32]
      exact .inl ⟨⟨h0.1, by omega⟩, _, rfl, .narrow h0.1 (by omega)⟩
    · rw [if_neg h0] at e32
      simp only [IntTy.low, IntTy.high] at h0
      rw [e32]
      by_cases h1 : IntTy.u64.low ≤ c.number ∧ c.number ≤ IntTy.u64.high
      · rw [if_pos h1] at e64
        simp only [IntTy.low, IntTy.high] at h1
        rw [e64]
        exact .inl ⟨⟨h1.1, by omega⟩, _, rfl, .wide (by omega) (by omega)⟩
      · rw [if_neg h1] at e64
        simp only [IntTy.low, IntTy.high] at h1
        rw [e64]
        exact .inr ⟨fun h => h1 ⟨h.1, by omega⟩, _, rfl⟩

theorem constItems_eq {l : List Assign} (hok : ∀ a ∈ l, Ident a.identifier ∧ ∀ x ∈ a.value.atoms, x.Ok) :
    ((∀ a ∈ l, a.value.Small) ∧ ∃ cs, GR.mapM constItem l = .ok cs ∧ List.Forall₂ DeclaredAs l cs) ∨
      ((∃ a ∈ l, ¬ a.value.Small) ∧ ∃ e, GR.mapM constItem l = .err e) := by
  induction l with
  | nil => exact .inl ⟨by simp, [], rfl, .nil⟩
  | cons a l ih =>
    have ha := hok a List.mem_cons_self
    rcases constItem_eq ha.1 ha.2 with ⟨h1, c, h2, h3⟩ | ⟨h1, e, h2⟩
    · rcases ih fun b hb => hok b (List.mem_cons_of_mem _ hb) with ⟨g1, cs, g2, g3⟩ | ⟨⟨b, hb, g1⟩, e, g2⟩
      · refine .inl ⟨List.forall_mem_cons.2 ⟨h1, g1⟩, c :: cs, ?_, .cons h3 g3⟩
        simp [GR.mapM, h2, g2, GR.bind]
      · refine .inr ⟨⟨b, List.mem_cons_of_mem _ hb, g1⟩, e, ?_⟩
        simp [GR.mapM, h2, g2, GR.bind]
    · refine .inr ⟨⟨a, List.mem_cons_self, h1⟩, e, ?_⟩
      simp [GR.mapM, h2, GR.bind]

/-- C65. The generated file declares the constants of the interface, in its order, and no others: under
their names, `u32` where the literal fits and `u64` otherwise. -/
theorem C65_declared {s : Str} {ds : List Definition} (hp : parse s = .ok ds) {n : Nat} {cfg : Config}
    {file : RustFile} (hg : gen_code n ds cfg = .ok file) : List.Forall₂ DeclaredAs (constants ds) file.constants := by
  have h := (gen_code_ok.1 hg).1
  rw [constants_token_eq] at h
  rcases constItems_eq fun a ha => atoms_constant (wellFormed_parse hp) ha with ⟨-, cs, h1, h2⟩ | ⟨-, e, h1⟩
  · rw [h] at h1
    cases h1
    exact h2
  · rw [h] at h1
    cases h1

/-- C65. A negative constant and one from 2^64 on are errors. -/
theorem C65_rejected {s : Str} {ds : List Definition} (hp : parse s = .ok ds) {name : Str} {c : Constant}
    (hc : .constant ⟨name, .constant c⟩ ∈ ds) (hr : c.number < 0 ∨ 2 ^ 64 ≤ c.number) (n : Nat) (cfg : Config) :
    ∃ e, gen_code n ds cfg = .err e := by
  rcases constItems_eq fun a ha => atoms_constant (wellFormed_parse hp) ha with ⟨h1, -⟩ | ⟨-, e, h1⟩
  · obtain ⟨h2, h3⟩ : 0 ≤ c.number ∧ c.number < 2 ^ 64 := h1 _ (mem_constants.2 hc)
    omega
  · refine ⟨e, ?_⟩
    unfold gen_code
    dsimp only
    rw [constants_token_eq, h1]
    rfl

/-- C65. An interface of constants only is accepted if the literals are from 0 to 2^64 - 1. -/
theorem C65_accepted {s : Str} {ds : List Definition} (hp : parse s = .ok ds)
    (hall : ∀ d ∈ ds, ∃ a, d = .constant a)
    (hr : ∀ name c, .constant ⟨name, .constant c⟩ ∈ ds → 0 ≤ c.number ∧ c.number < 2 ^ 64) (n : Nat) (cfg : Config) :
    ∃ file, gen_code n ds cfg = .ok file := by
  rcases constItems_eq fun a ha => atoms_constant (wellFormed_parse hp) ha with ⟨-, cs, h1, -⟩ | ⟨⟨⟨name, v⟩, ha, hs⟩, -⟩
  · have ht : (setup_context ds cfg).typedefs = [] := by
      simp only [setup_context, List.filterMap_eq_nil_iff]
      intro d hd
      obtain ⟨a, rfl⟩ := hall d hd
      rfl
    unfold gen_code types_token
    dsimp only
    rw [constants_token_eq, h1, ht]
    exact ⟨_, rfl⟩
  · cases v with
    | identifier o => exact absurd trivial hs
    | constant c => exact absurd (hr name c (mem_constants.1 ha)) hs

theorem declared_find {l : List Assign} {cs : List ConstItem} (h : List.Forall₂ DeclaredAs l cs) (name : Str) :
    match l.find? fun a => a.identifier = name with
    | none => (cs.find? fun c => c.name = ⟨false, name⟩) = none
    | some a => ∃ c, (cs.find? fun c => c.name = ⟨false, name⟩) = some c ∧ DeclaredAs a c := by
  induction h with
  | nil => rfl
  | @cons a c l cs h1 _ ih =>
    have hn : c.name = ⟨false, a.identifier⟩ := by cases h1 <;> rfl
    by_cases he : a.identifier = name
    · rw [List.find?_cons_of_pos (by simpa using he), List.find?_cons_of_pos (by simp [hn, he])]
      exact ⟨c, rfl, h1⟩
    · rw [List.find?_cons_of_neg (by simpa using he), List.find?_cons_of_neg (by simpa [hn] using he)]
      exact ih

theorem constOf_find (ds : List Definition) (name : Str) :
    constOf ds name = ((constants ds).find? fun a => a.identifier = name).map (·.value) := by
  induction ds with
  | nil => rfl
  | cons d ds ih =>
    cases d with
    | constant a =>
      by_cases h : a.identifier = name
      · simp [constOf, constants, h]
      · simp only [constOf, constants, List.findSome?_cons, h, if_false, List.filterMap_cons, List.find?_cons,
          decide_false] at ih ⊢
        exact ih
    | _ => exact ih

/-- What Rust computes for a declaration that stands for the assignment. -/
theorem eval_iff {ds : List Definition} {cs : List ConstItem} (h : List.Forall₂ DeclaredAs (constants ds) cs)
    {a : Assign} {c : ConstItem} (hd : DeclaredAs a c) {k : Int} : ConstEval cs c.ty c.value k ↔
      ThroughConstants ds a.value k ∧ ((∃ name, a.value = .identifier name) → k < 2 ^ 32) := by
  constructor
  · intro he
    generalize hcv : c.value = tok at he
    generalize hct : c.ty = t at he
    induction he generalizing a c with
    | lit =>
      cases hd with
      | narrow h1 h2 => cases hcv; exact ⟨.literal _, fun ⟨_, h⟩ => by cases h⟩
      | wide h1 h2 => cases hcv; exact ⟨.literal _, fun ⟨_, h⟩ => by cases h⟩
      | name => cases hcv
    | @name i c' v hf he ih =>
      cases hd with
      | narrow h1 h2 => cases hcv
      | wide h1 h2 => cases hcv
      | @name name other =>
        cases hcv
        have := declared_find h other
        have hco := constOf_find ds other
        split at this
        · rw [hf] at this
          cases this
        · next b hb =>
          obtain ⟨c'', h1, h2⟩ := this
          rw [hf] at h1
          cases h1
          rw [hb] at hco
          obtain ⟨h3, h4⟩ := ih h2 rfl rfl
          refine ⟨.name hco h3, fun _ => ?_⟩
          cases h2 with
          | narrow g1 g2 => cases h3; exact g2
          | wide g1 g2 => cases hct
          | name => exact h4 ⟨_, rfl⟩
  · rintro ⟨ht, hk⟩
    generalize hav : a.value = v at ht
    induction ht generalizing a c with
    | literal l =>
      cases hd with
      | narrow h1 h2 => cases hav; exact .lit
      | wide h1 h2 => cases hav; exact .lit
      | name => cases hav
    | @name nm v k hc ht ih =>
      cases hd with
      | narrow h1 h2 => cases hav
      | wide h1 h2 => cases hav
      | @name name other =>
        cases hav
        have := declared_find h nm
        have hco := constOf_find ds nm
        rw [hc] at hco
        split at this
        · next hb => rw [hb] at hco; cases hco
        · next b hb =>
          obtain ⟨c', h1, h2⟩ := this
          rw [hb] at hco
          cases hco
          have hk' := hk ⟨_, rfl⟩
          have he := ih h2 (fun _ => hk') rfl
          have hty : c'.ty = .u32 := by
            cases h2 with
            | narrow _ _ => rfl
            | wide g1 g2 => cases ht; omega
            | name => rfl
          have := ConstEval.name h1 he
          rwa [hty] at this

theorem through_stands {ds : List Definition} {v : Value} {k : Int} (h : ThroughConstants ds v k) :
    Stands ds v k := by
  induction h with
  | literal c => exact ⟨c, .literal c, rfl⟩
  | name hc _ ih =>
    obtain ⟨c, h1, h2⟩ := ih
    exact ⟨c, .name (by simp [lookup, hc]) h1, h2⟩

/-- C65. Which number rustc gives a constant of the generated file: its literal; or, if it is defined by a
name, the number that name has through names of constants, provided it is below 2^32. In all other cases
rustc rejects the declaration. -/
theorem C65_exact {s : Str} {ds : List Definition} (hp : parse s = .ok ds) {n : Nat} {cfg : Config}
    {file : RustFile} (hg : gen_code n ds cfg = .ok file) {a : Assign} {c : ConstItem}
    (hac : (a, c) ∈ (constants ds).zip file.constants) (k : Int) :
    ConstEval file.constants c.ty c.value k ↔
      ThroughConstants ds a.value k ∧ ((∃ name, a.value = .identifier name) → k < 2 ^ 32) :=
  have h := C65_declared hp hg
  eval_iff h (List.forall₂_iff_zip.1 h |>.2 hac)

/-- C65. What a constant of the generated file is, is what the interface says. -/
theorem C65_value_partial {s : Str} {ds : List Definition} (hp : parse s = .ok ds) {n : Nat} {cfg : Config}
    {file : RustFile} (hg : gen_code n ds cfg = .ok file) {a : Assign} {c : ConstItem}
    (hac : (a, c) ∈ (constants ds).zip file.constants) {k : Int} (hk : ConstEval file.constants c.ty c.value k) :
    Stands ds a.value k :=
  through_stands ((C65_exact hp hg hac k).1 hk).1

/-- C65, false: a constant of at least 2^32 cannot be given a second name. -/
theorem C65_wide_violated {s : Str} {ds : List Definition} (hp : parse s = .ok ds) {n : Nat} {cfg : Config}
    {file : RustFile} (hg : gen_code n ds cfg = .ok file) {name other : Str} {c : ConstItem}
    (hac : (⟨name, .identifier other⟩, c) ∈ (constants ds).zip file.constants) {k : Int}
    (hs : Stands ds (.identifier other) k) (hk : 2 ^ 32 ≤ k) (k' : Int) :
    ¬ ConstEval file.constants c.ty c.value k' := by
  intro he
  obtain ⟨h1, h2⟩ := (C65_exact hp hg hac k').1 he
  obtain ⟨d, h3, h4⟩ := through_stands h1
  obtain ⟨d', h5, h6⟩ := hs
  cases denotes_unique h3 h5
  have := h2 ⟨_, rfl⟩
  omega

/-- C65, false: a constant cannot be defined by an enum member. -/
theorem C65_member_violated {s : Str} {ds : List Definition} (hp : parse s = .ok ds) {n : Nat} {cfg : Config}
    {file : RustFile} (hg : gen_code n ds cfg = .ok file) {name other : Str} {c : ConstItem}
    (hac : (⟨name, .identifier other⟩, c) ∈ (constants ds).zip file.constants) (hno : constOf ds other = none)
    (k : Int) : ¬ ConstEval file.constants c.ty c.value k := by
  intro he
  have h1 := ((C65_exact hp hg hac k).1 he).1
  cases h1 with
  | name hc _ => rw [hno] at hc; cases hc

/-! ## Examples -/

def limits : List Definition := [.constant ⟨c!"MAX", .constant (.hex c!"100000000")⟩,
  .constant ⟨c!"LEN", .constant (.octal c!"17")⟩, .constant ⟨c!"SIZE", .identifier c!"LEN"⟩,
  .constant ⟨c!"LIMIT", .identifier c!"MAX"⟩, .constant ⟨c!"COLOUR", .identifier c!"RED"⟩,
  .type (.enum c!"colour" [⟨c!"RED", .constant (.decimal c!"3")⟩])]

theorem parse_limits : parse (c!"const MAX = 0x100000000; const LEN = 017; const SIZE = LEN; " ++
    c!"const LIMIT = MAX; const COLOUR = RED; enum colour { RED = 3 };") = .ok limits := by
  set_option maxRecDepth 100000 in rfl

/-- What the tool makes of it; `LEN` and `SIZE` are 15, `MAX` is a `u64`, `LIMIT` and `COLOUR` do not
compile. -/
example : ∃ file, gen_code 9 limits (Flags.config {}) = .ok file ∧
    List.Forall₂ DeclaredAs (constants limits) file.constants ∧
    ConstEval file.constants .u32 (.ident ⟨false, c!"LEN"⟩) 15 ∧ Stands limits (.identifier c!"LEN") 15 ∧
    (∀ k, ¬ ConstEval file.constants .u32 (.ident ⟨false, c!"MAX"⟩) k) ∧
    (∀ k, ¬ ConstEval file.constants .u32 (.ident ⟨false, c!"RED"⟩) k) := by
  obtain ⟨file, hg⟩ : ∃ file, gen_code 9 limits (Flags.config {}) = .ok file := ⟨_, rfl⟩
  refine ⟨file, hg, C65_declared parse_limits hg, ?_⟩
  have hcs : file.constants = [⟨⟨false, c!"MAX"⟩, .u64, .lit .u64 4294967296⟩,
      ⟨⟨false, c!"LEN"⟩, .u32, .lit .u32 15⟩, ⟨⟨false, c!"SIZE"⟩, .u32, .ident ⟨false, c!"LEN"⟩⟩,
      ⟨⟨false, c!"LIMIT"⟩, .u32, .ident ⟨false, c!"MAX"⟩⟩, ⟨⟨false, c!"COLOUR"⟩, .u32, .ident ⟨false, c!"RED"⟩⟩] := by
    cases hg
    rfl
  have ev : ConstEval file.constants .u32 (.ident ⟨false, c!"LEN"⟩) 15 :=
    (C65_exact parse_limits hg (a := ⟨c!"SIZE", .identifier c!"LEN"⟩) (c := ⟨⟨false, c!"SIZE"⟩, .u32, .ident ⟨false, c!"LEN"⟩⟩)
      (by simp [hcs, constants, limits]) 15).2 ⟨.name rfl (.literal _), fun _ => by decide⟩
  refine ⟨ev, C65_value_partial parse_limits hg (a := ⟨c!"SIZE", .identifier c!"LEN"⟩)
    (c := ⟨⟨false, c!"SIZE"⟩, .u32, .ident ⟨false, c!"LEN"⟩⟩) (by simp [hcs, constants, limits]) ev, ?_, ?_⟩
  · exact C65_wide_violated parse_limits hg (name := c!"LIMIT") (other := c!"MAX")
      (c := ⟨⟨false, c!"LIMIT"⟩, .u32, .ident ⟨false, c!"MAX"⟩⟩) (by simp [hcs, constants, limits])
      (k := 4294967296) ⟨_, .name rfl (.literal _), rfl⟩ (by decide)
  · exact C65_member_violated parse_limits hg (name := c!"COLOUR") (other := c!"RED")
      (c := ⟨⟨false, c!"COLOUR"⟩, .u32, .ident ⟨false, c!"RED"⟩⟩) (by simp [hcs, constants, limits]) rfl

example : ∃ e, gen_code 9 [.constant ⟨c!"EOF", .constant (.decimal c!"-1")⟩] (Flags.config {}) = .err e :=
  C65_rejected (s := c!"const EOF = -1;") rfl List.mem_cons_self (.inl (by decide)) 9 _

example : ∃ file, gen_code 0 [.constant ⟨c!"A", .constant (.hex c!"ffffffffffffffff")⟩] (Flags.config {}) = .ok file :=
  C65_accepted (s := c!"const A = 0xffffffffffffffff;") rfl (by simp) (by
    intro name c h
    simp only [List.mem_singleton, Definition.constant.injEq, Assign.mk.injEq, Value.constant.injEq] at h
    obtain ⟨-, rfl⟩ := h
    decide) 0 _

end Xdr.Rpcgen
