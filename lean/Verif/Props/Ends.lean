import Verif.RpcgenProofs.Mono
import Verif.Rpcgen.Main
import Verif.Props.GenUnion
import Verif.Props.Resolve
/-!
# Property C67: the generator ends on interfaces without circles

The functions of `gen_code.rs` that follow names call themselves. The model gives them a bound, and
`.depth` is the outcome when it is used up.
-/

namespace Xdr.Rpcgen

/-- C67. The bound is no part of the outcome: what comes out with one bound comes out with every greater one. -/
theorem C67_bound {n m : Nat} (h : n ≤ m) (ds : List Definition) (cfg : Config)
    (hn : gen_code n ds cfg ≠ .depth) : gen_code m ds cfg = gen_code n ds cfg :=
  (gen_code_le h ds cfg).eq hn

/-- C67. If no constant or enum member is defined by itself and no typedef leads to itself, the generator
ends, with one outcome for every bound beyond the size of the interface. -/
theorem C67_ends {ds : List Definition} (hv : Acyclic ds) (ht : ∀ a, ¬ LeadsTo ds a a) (cfg : Config) :
    ∃ r, r ≠ .depth ∧ ∀ n, (definedNames ds).length < n → ds.length < n → gen_code n ds cfg = r := by
  let m := max (definedNames ds).length ds.length + 1
  have hm1 : (definedNames ds).length < m := by omega
  have hm2 : ds.length < m := by omega
  refine ⟨gen_code m ds cfg, gen_code_ne hv ht hm1 hm2, fun n h1 h2 => ?_⟩
  exact C67_bound (by omega) ds cfg (gen_code_ne hv ht hm1 hm2)

/-! ## A case -/

/-- The definitions of `const A = B; const B = 7; typedef int t[A]; typedef t u; struct s { u x; };` -/
def chain : List Definition := [
  .constant ⟨c!"A", .identifier c!"B"⟩, .constant ⟨c!"B", .constant (.decimal c!"7")⟩,
  .type (.declaration (.fixedArray (.int true) c!"t" (.identifier c!"A"))),
  .type (.declaration (.variable (.identifier c!"t") c!"u")),
  .type (.struct c!"s" [.variable (.identifier c!"u") c!"x"])]

theorem parse_chain : parse c!"const A = B; const B = 7; typedef int t[A]; typedef t u; struct s { u x; };" =
    .ok chain := by
  set_option maxRecDepth 100000 in rfl

theorem uses_chain {a b : Str} (h : Uses chain a b) : a = c!"A" ∧ b = c!"B" := by
  rcases h with h | h
  · simp only [chain, constOf, List.findSome?] at h
    by_cases ha : c!"A" = a
    · simp only [ha, if_true, Option.some.injEq, Value.identifier.injEq] at h
      exact ⟨ha.symm, h.symm⟩
    · by_cases hb : c!"B" = a
      · subst hb
        simp at h
      · simp [ha, hb] at h
  · simp [chain, memberOf, List.findSome?] at h

theorem acyclic_chain : Acyclic chain := by
  have : ∀ a b, Reaches chain a b → a = c!"A" ∧ b = c!"B" := by
    intro a b h
    induction h with
    | step h => exact uses_chain h
    | more _ h ih => exact ⟨ih.1, (uses_chain h).2⟩
  intro a h
  obtain ⟨h1, h2⟩ := this a a h
  rw [h1] at h2
  exact absurd h2 (by decide)

theorem leads_chain {a b : Str} (h : LeadsTo chain a b) : a = c!"u" ∧ b = c!"t" := by
  have key : ∀ {a b : Str} {d : Declaration}, typeOf chain a = some (.declaration d) →
      d.element = some (.identifier b) → a = c!"u" ∧ b = c!"t" := by
    intro a b d h1 h2
    simp only [chain, typeOf, List.findSome?, TypeDef.name, Declaration.name, Option.some.injEq] at h1
    by_cases ht : c!"t" = a
    · subst ht
      simp only [if_true, Option.some.injEq, TypeDef.declaration.injEq] at h1
      subst h1
      simp [Declaration.element] at h2
    · by_cases hu : c!"u" = a
      · subst hu
        simp at h1
        subst h1
        simp only [Declaration.element, Option.some.injEq, TypeSpecifier.identifier.injEq] at h2
        exact ⟨rfl, h2.symm⟩
      · by_cases hs : c!"s" = a
        · subst hs
          simp at h1
        · simp [ht, hu, hs] at h1
  induction h with
  | step h1 h2 => exact key h1 h2
  | more h1 h2 _ ih => exact absurd ((key h1 h2).2.symm.trans ih.1) (by decide)

/-- The generator ends on `chain`, with one outcome for all bounds above 5. -/
example (cfg : Config) : ∃ r, r ≠ .depth ∧ ∀ n, 5 < n → gen_code n chain cfg = r := by
  obtain ⟨r, h1, h2⟩ := C67_ends acyclic_chain
    (fun a h => absurd ((leads_chain h).1.symm.trans (leads_chain h).2) (by decide)) cfg
  exact ⟨r, h1, fun n hn => h2 n (by simp only [definedNames, chain]; simp; omega) (by simp [chain]; omega)⟩

/-- And that outcome is a file. -/
example : ∃ file, ∀ n, 6 ≤ n → gen_code n chain (Flags.config {}) = .ok file := by
  obtain ⟨file, hf⟩ : ∃ file, gen_code 6 chain (Flags.config {}) = .ok file :=
    ⟨_, by set_option maxRecDepth 100000 in rfl⟩
  exact ⟨file, fun n hn => (C67_bound hn chain _ (by rw [hf]; exact nofun)).trans hf⟩

end Xdr.Rpcgen
