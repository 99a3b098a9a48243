import Verif.RpcgenProofs.Outcome
import Verif.Props.Parsing
/-!
# Properties C41, C42, C55: constants

`(setup_context ds cfg).resolve_value t n v` is `cxt.resolve_value::<T>(v)` for the definitions `ds`,
`gen_code.rs` 94-103, with at most `n` nested calls. What a value stands for is `Denotes`
(`Spec/Resolve.lean`).
-/

namespace Xdr.Rpcgen

/-- A file used in the examples below: `B` is defined twice, `X` before the constant it uses. -/
def resolveFile : List Definition := [
  .type (.enum c!"e" [⟨c!"X", .identifier c!"A"⟩, ⟨c!"Y", .constant (.decimal c!"-3")⟩]),
  .constant ⟨c!"A", .identifier c!"B"⟩,
  .constant ⟨c!"B", .constant (.hex c!"1f")⟩,
  .constant ⟨c!"B", .constant (.decimal c!"7")⟩]

/-! ## C41 -/

/-- C41. A value that stands for a literal, through any chain of names, resolves to the number of that
literal in every type that holds it, whatever the configuration. -/
theorem C41_resolves (ds : List Definition) (cfg : Config) (t : IntTy) {v : Value} {c : Constant}
    (hv : Denotes ds v c) (hc : ∃ s, ConstantText c s) (hmin : t.low ≤ c.number)
    (hmax : c.number ≤ t.high) :
    ∃ N, ∀ n, N ≤ n → (setup_context ds cfg).resolve_value t n v = .ok c.number := by
  rw [IntTy.low_eq] at hmin
  rw [IntTy.high_eq] at hmax
  obtain ⟨s, hs⟩ := hc
  have hw : c.value t = .ok c.number := by
    unfold Constant.value
    rw [tryInto_eq hs t, if_pos ⟨hmin, hmax⟩]
    rfl
  obtain ⟨N, hN⟩ := resolve_denotes (cfg := cfg) hv hw
  refine ⟨N, fun n hn => ?_⟩
  rw [resolve_value_mono (by rw [hN]; simp) hn, hN]

example : Denotes resolveFile (.identifier c!"X") (.hex c!"1f") ∧
    (Constant.hex c!"1f").number = 31 ∧
    (setup_context resolveFile {}).resolve_value .i32 4 (.identifier c!"X") = .ok 31 :=
  ⟨.name rfl (.name rfl (.name rfl (.literal _))), rfl, rfl⟩

/-- C41. If no name is both a constant and an enum member: a value that stands for a literal the type
does not hold, and one that leads to an undefined name, is an error. Missing from the full claim: files
in which such names exist; see `C41_fallback`. -/
theorem C41_errors_partial (ds : List Definition) (hnc : NoClash ds) (cfg : Config) (t : IntTy)
    {v : Value}
    (hv : Dangling ds v ∨
      ∃ c s, Denotes ds v c ∧ ConstantText c s ∧ ¬ (t.low ≤ c.number ∧ c.number ≤ t.high)) :
    ∃ N e, ∀ n, N ≤ n → (setup_context ds cfg).resolve_value t n v = .err e := by
  simp only [IntTy.low_eq, IntTy.high_eq] at hv
  have key : ∃ N e, (setup_context ds cfg).resolve_value t N v = .err e := by
    rcases hv with hv | ⟨c, s, hv, hs, hr⟩
    · induction hv with
      | @unknown nm hl =>
        unfold lookup at hl
        simp only [Option.or_eq_none_iff] at hl
        refine ⟨1, .notFound nm, ?_⟩
        rw [resolve_value_name, resolve_name_succ, hl.1, hl.2]
        rfl
      | name hl _ ih =>
        obtain ⟨N, e, h⟩ := ih
        exact ⟨N + 1, resolve_error_step hnc hl h⟩
    · have hw : c.value t = .err (.parse c) := by
        unfold Constant.value
        rw [tryInto_eq hs t, if_neg (show ¬ t.Holds c.number from hr)]
        rfl
      clear hs hr
      induction hv with
      | literal c => exact ⟨0, _, hw⟩
      | name hl _ ih =>
        obtain ⟨N, e, h⟩ := ih hw
        exact ⟨N + 1, resolve_error_step hnc hl h⟩
  obtain ⟨N, e, h⟩ := key
  refine ⟨N, e, fun n hn => ?_⟩
  rw [resolve_value_mono (by rw [h]; simp) hn, h]

/-- C41. The error names the undefined name itself when it is used directly. -/
theorem C41_unknown (ds : List Definition) (cfg : Config) (t : IntTy) {name : Str}
    (h : lookup ds name = none) :
    ∀ n, 1 ≤ n → (setup_context ds cfg).resolve_value t n (.identifier name) = .err (.notFound name) := by
  intro n hn
  obtain ⟨m, rfl⟩ : ∃ m, n = m + 1 := ⟨n - 1, by omega⟩
  unfold lookup at h
  simp only [Option.or_eq_none_iff] at h
  rw [resolve_value_name, resolve_name_succ, h.1, h.2]
  rfl

theorem lookup_const_of_ne {ds : List Definition} {name : Str}
    (h : ∀ d ∈ ds, ∀ e m, d ≠ .type (.enum e m)) : memberOf ds name = none := by
  unfold memberOf
  rw [List.findSome?_eq_none_iff]
  intro d hd
  split
  · exact absurd rfl (h _ hd _ _)
  · rfl

example : NoClash [.constant ⟨c!"A", .identifier c!"B"⟩] ∧
    Dangling [.constant ⟨c!"A", .identifier c!"B"⟩] (.identifier c!"A") ∧
    (setup_context [.constant ⟨c!"A", .identifier c!"B"⟩] {}).resolve_value .i32 2 (.identifier c!"A")
      = .err (.notFound c!"A") :=
  ⟨fun _ => .inr (lookup_const_of_ne (by simp)), .name rfl (.unknown rfl), rfl⟩

/-- C41 is false when a name has two meanings: the constant `A` does not fit the type, and the code
silently takes the enum member `A` instead. -/
theorem C41_fallback : ∃ (ds : List Definition) (c : Constant),
    Denotes ds (.identifier c!"A") c ∧ c.number = 4294967296 ∧
    ∀ n cfg, 2 ≤ n → (setup_context ds cfg).resolve_value .i32 n (.identifier c!"A") = .ok 5 := by
  refine ⟨[.constant ⟨c!"A", .constant (.decimal c!"4294967296")⟩,
    .type (.enum c!"e" [⟨c!"A", .constant (.decimal c!"5")⟩])], .decimal c!"4294967296",
    .name rfl (.literal _), rfl, fun n cfg hn => ?_⟩
  obtain ⟨m, rfl⟩ : ∃ m, n = m + 1 := ⟨n - 1, by omega⟩
  rw [resolve_value_name, resolve_name_succ]
  rfl

/-- C41, exactly what the code does, with no condition on the names: resolving `v` ends with the number `k`
if and only if that is the outcome of `v` (`Outcome`, `Spec/Resolve.lean`), and ends with an error if and
only if the outcome is that there is no number. The outcome differs from what `v` stands for only by the
step `C41_fallback` shows. -/
theorem C41_exact {ds : List Definition} (hwf : WellFormed ds) (cfg : Config) (t : IntTy) (v : Value)
    (hv : ∀ c, v = .constant c → ∃ s, ConstantText c s) :
    (∀ k, (∃ N, ∀ n, N ≤ n → (setup_context ds cfg).resolve_value t n v = .ok k) ↔
      Outcome ds t.low t.high v (some k)) ∧
    ((∃ N e, ∀ n, N ≤ n → (setup_context ds cfg).resolve_value t n v = .err e) ↔
      Outcome ds t.low t.high v none) := by
  rw [IntTy.low_eq, IntTy.high_eq]
  refine ⟨fun k => ⟨fun ⟨N, h⟩ => ?_, fun h => ?_⟩, ⟨fun ⟨N, e, h⟩ => ?_, fun h => ?_⟩⟩
  · exact outcome_of_resolve (cfg := cfg) hwf N hv (by rw [h N (Nat.le_refl _)]; rfl)
  · obtain ⟨N, hN⟩ := resolve_of_outcome (cfg := cfg) hwf h hv
    refine ⟨N, fun n hn => ?_⟩
    have hN' := outcome_mono (cfg := cfg) hn hN
    rcases hr : (setup_context ds cfg).resolve_value t n v with k' | e | p | _ <;> rw [hr] at hN' <;>
      cases hN'
    rfl
  · exact outcome_of_resolve (cfg := cfg) hwf N hv (by rw [h N (Nat.le_refl _)]; rfl)
  · obtain ⟨N, hN⟩ := resolve_of_outcome (cfg := cfg) hwf h hv
    rcases hr : (setup_context ds cfg).resolve_value t N v with k' | e | p | _ <;> rw [hr] at hN <;>
      cases hN
    refine ⟨N, e, fun n hn => ?_⟩
    rw [resolve_value_mono (by rw [hr]; simp) hn, hr]

/-- Where no name is both a constant and an enum member, outcomes are what values stand for. -/
theorem C41_outcome_stands {ds : List Definition} (hnc : NoClash ds) {lo hi : Int} {v : Value} {k : Int} :
    Outcome ds lo hi v (some k) ↔ Stands ds v k ∧ lo ≤ k ∧ k ≤ hi := by
  constructor
  · intro h
    generalize ho : some k = o at h
    induction h with
    | literal h1 h2 =>
      cases ho
      exact ⟨⟨_, .literal _, rfl⟩, h1, h2⟩
    | unfit _ => cases ho
    | const hc _ ih =>
      obtain ⟨⟨c, h1, h2⟩, h3⟩ := ih ho
      exact ⟨⟨c, .name (by rw [lookup, hc]; rfl) h1, h2⟩, h3⟩
    | @member name _ _ _ hm _ _ ih =>
      obtain ⟨⟨c, h1, h2⟩, h3⟩ := ih ho
      rcases hnc name with hc | hc
      · exact ⟨⟨c, .name (by rw [lookup, hc, hm]; rfl) h1, h2⟩, h3⟩
      · rw [hm] at hc
        cases hc
    | unknown _ _ => cases ho
  · rintro ⟨⟨c, hd, rfl⟩, h1, h2⟩
    induction hd with
    | literal c => exact .literal h1 h2
    | @name name v c hl _ ih =>
      rcases hnc name with hc | hc
      · rw [lookup, hc] at hl
        exact .member (by simp [hc]) hl (ih h1 h2)
      · rw [lookup, hc, Option.or_none] at hl
        exact .const hl (ih h1 h2)

/-- The file of `C41_fallback`: the outcome of `A` is 5. -/
example : Outcome [.constant ⟨c!"A", .constant (.decimal c!"4294967296")⟩,
    .type (.enum c!"e" [⟨c!"A", .constant (.decimal c!"5")⟩])] IntTy.i32.low IntTy.i32.high
    (.identifier c!"A") (some 5) := by
  refine .member (v := .constant (.decimal c!"5")) (fun w hw => ?_) rfl
    (.literal (c := .decimal c!"5") (by decide) (by decide))
  cases hw
  exact .unfit (by decide)

/-! ## C42 -/

/-- C42. If no definition uses itself, resolving any value ends, with a number or an error, within as
many nested calls as the file defines names. -/
theorem C42_terminates_partial (ds : List Definition) (hac : Acyclic ds) (cfg : Config) (t : IntTy)
    (v : Value) : ∀ n, (definedNames ds).length < n →
      (∃ k, (setup_context ds cfg).resolve_value t n v = .ok k) ∨
      (∃ e, (setup_context ds cfg).resolve_value t n v = .err e) := by
  intro n hn
  have h1 := resolve_value_acyclic (cfg := cfg) (t := t) hac n v hn
  rcases h : (setup_context ds cfg).resolve_value t n v with k | e | p | _
  · exact .inl ⟨k, rfl⟩
  · exact .inr ⟨e, rfl⟩
  · exfalso
    cases v with
    | constant c => exact value_ne_panic c t p h
    | identifier m => exact resolve_name_no_panic n m p h
  · exact absurd h h1

/-- C42 is false of the code: if a name leads to itself, resolving it never ends. -/
theorem C42_endless (ds : List Definition) (f : Nat → Str)
    (hf : ∀ i, lookup ds (f i) = some (.identifier (f (i + 1)))) (cfg : Config) (t : IntTy) :
    ∀ n, (setup_context ds cfg).resolve_value t n (.identifier (f 0)) = .depth :=
  fun n => resolve_endless f hf n 0

/-- C42, exactly: resolving a name never ends if and only if it starts an endless chain of names, and it
ends with a number or an error if and only if it starts none. -/
theorem C42_exact {ds : List Definition} (hwf : WellFormed ds) (cfg : Config) (t : IntTy) (name : Str) :
    ((∀ n, (setup_context ds cfg).resolve_value t n (.identifier name) = .depth) ↔
      ∃ f : Nat → Str, f 0 = name ∧ ∀ i, Follows ds t.low t.high (f i) (f (i + 1))) ∧
    ((∃ N, ∀ n, N ≤ n →
        (∃ k, (setup_context ds cfg).resolve_value t n (.identifier name) = .ok k) ∨
        (∃ e, (setup_context ds cfg).resolve_value t n (.identifier name) = .err e)) ↔
      ¬ ∃ f : Nat → Str, f 0 = name ∧ ∀ i, Follows ds t.low t.high (f i) (f (i + 1))) := by
  have hv : ∀ c, Value.identifier name = .constant c → ∃ s, ConstantText c s := fun c h => nomatch h
  rw [IntTy.low_eq, IntTy.high_eq, ← no_outcome_iff]
  constructor
  · constructor
    · intro h o ho
      obtain ⟨N, hN⟩ := resolve_of_outcome (cfg := cfg) hwf ho hv
      rw [h N] at hN
      cases hN
    · intro h n
      rcases hr : (setup_context ds cfg).resolve_value t n (.identifier name) with k | e | p | _
      · exact absurd (outcome_of_resolve (cfg := cfg) hwf n hv (by rw [hr]; rfl)) (h (some k))
      · exact absurd (outcome_of_resolve (cfg := cfg) hwf n hv (by rw [hr]; rfl)) (h none)
      · exact absurd hr (resolve_name_no_panic n name p)
      · rfl
  · constructor
    · rintro ⟨N, h⟩ hno
      rcases h N (Nat.le_refl _) with ⟨k, hk⟩ | ⟨e, he⟩
      · exact hno _ (outcome_of_resolve (cfg := cfg) (o := some k) hwf N hv (by rw [hk]; rfl))
      · exact hno _ (outcome_of_resolve (cfg := cfg) (o := none) hwf N hv (by rw [he]; rfl))
    · intro h
      simp only [not_forall, not_not] at h
      obtain ⟨o, ho⟩ := h
      obtain ⟨N, hN⟩ := resolve_of_outcome (cfg := cfg) hwf ho hv
      refine ⟨N, fun n hn => ?_⟩
      have hn' := outcome_mono (cfg := cfg) hn hN
      rcases hr : (setup_context ds cfg).resolve_value t n (.identifier name) with k | e | p | _
      · exact .inl ⟨k, rfl⟩
      · exact .inr ⟨e, rfl⟩
      · rw [hr] at hn'
        cases hn'
      · rw [hr] at hn'
        cases hn'

/-- A constant that is its own value starts such a chain. -/
example : ∃ ds, parse c!"const A = A;" = .ok ds ∧
    ∃ f : Nat → Str, f 0 = c!"A" ∧ ∀ i, Follows ds IntTy.i32.low IntTy.i32.high (f i) (f (i + 1)) :=
  ⟨_, rfl, fun _ => c!"A", rfl, fun _ => .inl rfl⟩

/-- C42 is false of the code, end to end: this file is read, and generating code from it never ends. -/
theorem C42_violated : ∃ (s : Str) (ds : List Definition), parse s = .ok ds ∧
    ∀ n cfg, gen_code n ds cfg = .depth := by
  refine ⟨c!"const A = B; const B = A; enum e { X = A };", [
    .constant ⟨c!"A", .identifier c!"B"⟩, .constant ⟨c!"B", .identifier c!"A"⟩,
    .type (.enum c!"e" [⟨c!"X", .identifier c!"A"⟩])], rfl, fun n cfg => ?_⟩
  have h := C42_endless [
    .constant ⟨c!"A", .identifier c!"B"⟩, .constant ⟨c!"B", .identifier c!"A"⟩,
    .type (.enum c!"e" [⟨c!"X", .identifier c!"A"⟩])] (fun i => if i % 2 = 0 then c!"A" else c!"B")
    (fun i => by
      rcases Nat.mod_two_eq_zero_or_one i with h | h
      · have h2 : (i + 1) % 2 = 1 := by omega
        simp only [h, h2]
        rfl
      · have h2 : (i + 1) % 2 = 0 := by omega
        simp only [h, h2]
        rfl) cfg .i32 n
  have h2 : enumIndexed (setup_context [
    .constant ⟨c!"A", .identifier c!"B"⟩, .constant ⟨c!"B", .identifier c!"A"⟩,
    .type (.enum c!"e" [⟨c!"X", .identifier c!"A"⟩])] cfg) n [⟨c!"X", .identifier c!"A"⟩] = .depth := by
    simp only [enumIndexed, GR.mapM, show (setup_context [
      .constant ⟨c!"A", .identifier c!"B"⟩, .constant ⟨c!"B", .identifier c!"A"⟩,
      .type (.enum c!"e" [⟨c!"X", .identifier c!"A"⟩])] cfg).resolve_value .i32 n
        (.identifier c!"A") = .depth from h, GR.bind]
  have h3 : types_token (setup_context [
    .constant ⟨c!"A", .identifier c!"B"⟩, .constant ⟨c!"B", .identifier c!"A"⟩,
    .type (.enum c!"e" [⟨c!"X", .identifier c!"A"⟩])] cfg) n = .depth := by
    unfold types_token
    have : (setup_context [
      .constant ⟨c!"A", .identifier c!"B"⟩, .constant ⟨c!"B", .identifier c!"A"⟩,
      .type (.enum c!"e" [⟨c!"X", .identifier c!"A"⟩])] cfg).typedefs =
      [(c!"e", .enum c!"e" [⟨c!"X", .identifier c!"A"⟩])] := rfl
    rw [this]
    simp only [GR.mapM, typeToken, convert_enum_token, h2, GR.bind]
  unfold gen_code
  simp only [h3]
  rfl

/-- An acyclic file, for the hypothesis of `C42_terminates_partial`. -/
example : Acyclic [.constant ⟨c!"A", .identifier c!"B"⟩, .constant ⟨c!"B", .constant (.decimal c!"7")⟩] := by
  have hu : ∀ a b, Uses [.constant ⟨c!"A", .identifier c!"B"⟩, .constant ⟨c!"B", .constant (.decimal c!"7")⟩]
      a b → a = c!"A" ∧ b = c!"B" := by
    intro a b h
    rcases h with h | h
    · simp only [constOf, List.findSome?] at h
      by_cases ha : c!"A" = a
      · simp only [ha, if_true, Option.some.injEq, Value.identifier.injEq] at h
        exact ⟨ha.symm, h.symm⟩
      · by_cases hb : c!"B" = a
        · subst hb
          simp at h
        · simp [ha, hb] at h
    · simp [memberOf, List.findSome?] at h
  have : ∀ a b, Reaches [.constant ⟨c!"A", .identifier c!"B"⟩,
      .constant ⟨c!"B", .constant (.decimal c!"7")⟩] a b → a = c!"A" ∧ b = c!"B" := by
    intro a b h
    induction h with
    | step h => exact hu _ _ h
    | more _ h ih => exact ⟨ih.1, (hu _ _ h).2⟩
  intro a h
  obtain ⟨h1, h2⟩ := this a a h
  rw [h1] at h2
  exact absurd h2 (by decide)

/-! ## C55 -/

/-- Constant definitions. -/
def Definition.isConstant : Definition → Bool
  | .constant _ => true
  | _ => false

/-- Type definitions. -/
def Definition.isType : Definition → Bool
  | .type _ => true
  | _ => false

/-- C55. The generated code depends on the sequence of constant definitions and on the sequence of type
definitions, and not on how the two are interleaved, nor on programs and `%` lines. -/
theorem C55_interleaving (n : Nat) (cfg : Config) (ds ds' : List Definition)
    (hc : ds.filter Definition.isConstant = ds'.filter Definition.isConstant)
    (ht : ds.filter Definition.isType = ds'.filter Definition.isType) :
    gen_code n ds cfg = gen_code n ds' cfg := by
  have h : ∀ l : List Definition,
      (setup_context l cfg).constants = (setup_context (l.filter Definition.isConstant) cfg).constants ∧
      (setup_context l cfg).typedefs = (setup_context (l.filter Definition.isType) cfg).typedefs := by
    intro l
    simp only [setup_context]
    induction l with
    | nil => exact ⟨rfl, rfl⟩
    | cons d l ih =>
      cases d <;> simp_all [List.filter_cons, List.filterMap_cons, Definition.isConstant, Definition.isType]
  have e : setup_context ds cfg = setup_context ds' cfg := by
    have h1 := h ds
    have h2 := h ds'
    rw [hc] at h1
    rw [ht] at h1
    have a := h1.1.trans h2.1.symm
    have b := h1.2.trans h2.2.symm
    have c : (setup_context ds cfg).config = (setup_context ds' cfg).config := rfl
    revert a b c
    generalize setup_context ds cfg = x
    generalize setup_context ds' cfg = y
    cases x
    cases y
    simp_all
  unfold gen_code
  rw [e]

example : gen_code 5 resolveFile {} =
    gen_code 5 (resolveFile.drop 1 ++ [.lineComment] ++ resolveFile.take 1) {} ∧
    ∃ f, gen_code 5 (resolveFile.drop 1) {} = .ok f :=
  ⟨C55_interleaving 5 {} _ _ rfl rfl, _, rfl⟩

end Xdr.Rpcgen
