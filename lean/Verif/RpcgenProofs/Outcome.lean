import Verif.RpcgenProofs.Safe
/-!
# What resolving a name comes to, exactly
-/

namespace Xdr.Rpcgen

variable {ds : List Definition} {cfg : Config} {t : IntTy}

/-- The result of resolving, as an outcome. -/
def GR.outcome : GR Int → Option (Option Int)
  | .ok k => some (some k)
  | .err _ => some none
  | _ => none

theorem GR.outcome_orElse (a b : GR Int) :
    (GR.orElse a b).outcome = match a.outcome with
      | some none => b.outcome
      | o => o := by
  cases a <;> rfl

/-- A literal of the file. -/
def ValueOk (v : Value) : Prop := ∀ c, v = .constant c → ∃ s, ConstantText c s

theorem valueOk_const (hwf : WellFormed ds) {name : Str} {v : Value} (h : constOf ds name = some v) :
    ValueOk v := by
  rintro c rfl
  exact hwf (.number c) (constOf_atoms h (by simp [Value.atoms]))

theorem valueOk_member (hwf : WellFormed ds) {name : Str} {v : Value} (h : memberOf ds name = some v) :
    ValueOk v := by
  rintro c rfl
  exact hwf (.number c) (memberOf_atoms h (by simp [Value.atoms]))

theorem literal_value {c : Constant} (h : ∃ s, ConstantText c s) :
    (c.value t).outcome = some (if t.min ≤ c.number ∧ c.number ≤ t.max then some c.number else none) := by
  obtain ⟨s, hs⟩ := h
  unfold Constant.value
  rw [tryInto_eq hs t]
  by_cases hh : t.Holds c.number
  · rw [if_pos hh, if_pos (show t.min ≤ c.number ∧ c.number ≤ t.max from hh)]
    rfl
  · rw [if_neg hh, if_neg (show ¬ (t.min ≤ c.number ∧ c.number ≤ t.max) from hh)]
    rfl

/-- Whatever resolving answers is the outcome. -/
theorem outcome_of_resolve (hwf : WellFormed ds) (n : Nat) {v : Value} (hv : ValueOk v) {o : Option Int}
    (h : ((setup_context ds cfg).resolve_value t n v).outcome = some o) :
    Outcome ds t.min t.max v o := by
  induction n generalizing v o with
  | zero =>
    cases v with
    | identifier name => cases h
    | constant c =>
      rw [resolve_value_lit, literal_value (hv c rfl)] at h
      cases h
      split
      · next hh => exact .literal hh.1 hh.2
      · next hh => exact .unfit hh
  | succ n ih =>
    cases v with
    | constant c =>
      rw [resolve_value_lit, literal_value (hv c rfl)] at h
      cases h
      split
      · next hh => exact .literal hh.1 hh.2
      · next hh => exact .unfit hh
    | identifier name =>
      rw [resolve_value_name, resolve_name_succ, GR.outcome_orElse] at h
      have hfound : ∀ w o', (resolveFound ((setup_context ds cfg).resolve_name t n) t name (some w)).outcome
          = some o' → ValueOk w → Outcome ds t.min t.max w o' := fun w o' hh hw => ih hw hh
      have hmem : (∀ w, constOf ds name = some w → Outcome ds t.min t.max w none) →
          (resolveFound ((setup_context ds cfg).resolve_name t n) t name (memberOf ds name)).outcome = some o →
          Outcome ds t.min t.max (.identifier name) o := by
        intro hc hh
        cases hm : memberOf ds name with
        | none =>
          rw [hm] at hh
          cases hh
          exact .unknown hc hm
        | some v =>
          rw [hm] at hh
          exact .member hc hm (hfound v o hh (valueOk_member hwf hm))
      cases hc : constOf ds name with
      | none =>
        rw [hc] at h
        exact hmem (by simp [hc]) h
      | some w =>
        rw [hc] at h
        cases hr : (resolveFound ((setup_context ds cfg).resolve_name t n) t name (some w)).outcome with
        | none => simp [hr] at h
        | some o' =>
          cases o' with
          | none =>
            rw [hr] at h
            refine hmem (fun w' hw' => ?_) h
            rw [hc] at hw'
            cases hw'
            exact hfound w none hr (valueOk_const hwf hc)
          | some k =>
            rw [hr] at h
            cases h
            exact .const hc (hfound w _ hr (valueOk_const hwf hc))

theorem outcome_mono {n m : Nat} {v : Value} {o : Option Int} (hm : n ≤ m)
    (h : ((setup_context ds cfg).resolve_value t n v).outcome = some o) :
    ((setup_context ds cfg).resolve_value t m v).outcome = some o := by
  rw [resolve_value_mono (by rintro e; rw [e] at h; cases h) hm]
  exact h

/-- Every outcome is answered, from some bound on. -/
theorem resolve_of_outcome (hwf : WellFormed ds) {v : Value} {o : Option Int}
    (h : Outcome ds t.min t.max v o) (hv : ValueOk v) :
    ∃ n, ((setup_context ds cfg).resolve_value t n v).outcome = some o := by
  have hconst : ∀ name, (∀ w, constOf ds name = some w → ValueOk w →
      ∃ n, ((setup_context ds cfg).resolve_value t n w).outcome = some none) →
      ∃ n, ∀ m, n ≤ m → (resolveFound ((setup_context ds cfg).resolve_name t m) t name (constOf ds name)).outcome
        = some none := by
    intro name ih
    cases hc : constOf ds name with
    | none => exact ⟨0, fun _ _ => rfl⟩
    | some w =>
      obtain ⟨n, hn⟩ := ih w hc (valueOk_const hwf hc)
      exact ⟨n, fun m hm => outcome_mono hm hn⟩
  induction h with
  | @literal c h1 h2 =>
    refine ⟨0, ?_⟩
    rw [resolve_value_lit, literal_value (hv c rfl), if_pos ⟨h1, h2⟩]
  | @unfit c h1 =>
    refine ⟨0, ?_⟩
    rw [resolve_value_lit, literal_value (hv c rfl), if_neg h1]
  | @const name v k hc _ ih =>
    obtain ⟨n, hn⟩ := ih (valueOk_const hwf hc)
    refine ⟨n + 1, ?_⟩
    rw [resolve_value_name, resolve_name_succ, GR.outcome_orElse, hc]
    have : (resolveFound ((setup_context ds cfg).resolve_name t n) t name (some v)).outcome = some (some k) := hn
    rw [this]
  | @member name v o _ hm _ ihc ih =>
    obtain ⟨n1, h1⟩ := hconst name fun w hw hok => ihc w hw hok
    obtain ⟨n2, h2⟩ := ih (valueOk_member hwf hm)
    refine ⟨max n1 n2 + 1, ?_⟩
    rw [resolve_value_name, resolve_name_succ, GR.outcome_orElse, h1 _ (Nat.le_max_left _ _), hm]
    exact outcome_mono (Nat.le_max_right n1 n2) h2
  | @unknown name _ hm ihc =>
    obtain ⟨n1, h1⟩ := hconst name fun w hw hok => ihc w hw hok
    refine ⟨n1 + 1, ?_⟩
    rw [resolve_value_name, resolve_name_succ, GR.outcome_orElse, h1 _ (Nat.le_refl _), hm]
    rfl

/-- A value has one outcome. -/
theorem Outcome.unique {lo hi : Int} {v : Value} {o o' : Option Int} (h : Outcome ds lo hi v o)
    (h' : Outcome ds lo hi v o') : o = o' := by
  induction h generalizing o' with
  | literal h1 h2 =>
    cases h' with
    | literal => rfl
    | unfit h => exact absurd ⟨h1, h2⟩ h
  | unfit h =>
    cases h' with
    | literal h1 h2 => exact absurd ⟨h1, h2⟩ h
    | unfit => rfl
  | const hc _ ih =>
    cases h' with
    | const hc' h' =>
      rw [hc] at hc'
      cases hc'
      exact ih h'
    | member hn _ _ => exact absurd (ih (hn _ hc)) (by simp)
    | unknown hn _ => exact absurd (ih (hn _ hc)) (by simp)
  | member hn hm _ ihc ih =>
    cases h' with
    | const hc' h' => exact absurd (ihc _ hc' h') (by simp)
    | member _ hm' h' =>
      rw [hm] at hm'
      cases hm'
      exact ih h'
    | unknown _ hm' =>
      rw [hm] at hm'
      cases hm'
  | unknown hn hm ihc =>
    cases h' with
    | const hc' h' => exact absurd (ihc _ hc' h') (by simp)
    | member _ hm' h' =>
      rw [hm] at hm'
      cases hm'
    | unknown => rfl

/-- A name without an outcome leads to another one. -/
theorem no_outcome_step {lo hi : Int} {a : Str} (h : ∀ o, ¬ Outcome ds lo hi (.identifier a) o) :
    ∃ b, Follows ds lo hi a b ∧ ∀ o, ¬ Outcome ds lo hi (.identifier b) o := by
  have hlit : ∀ c, ∃ o, Outcome ds lo hi (.constant c) o := by
    intro c
    by_cases hh : lo ≤ c.number ∧ c.number ≤ hi
    · exact ⟨_, .literal hh.1 hh.2⟩
    · exact ⟨_, .unfit hh⟩
  by_cases hc : ∀ w, constOf ds a = some w → Outcome ds lo hi w none
  · cases hm : memberOf ds a with
    | none => exact absurd (.unknown hc hm) (h none)
    | some v =>
      cases v with
      | constant c =>
        obtain ⟨o, ho⟩ := hlit c
        exact absurd (.member hc hm ho) (h o)
      | identifier b => exact ⟨b, .inr ⟨hc, hm⟩, fun o ho => h o (.member hc hm ho)⟩
  · simp only [not_forall] at hc
    obtain ⟨w, hw, hn⟩ := hc
    cases w with
    | constant c =>
      obtain ⟨o, ho⟩ := hlit c
      cases o with
      | none => exact absurd ho hn
      | some k => exact absurd (.const hw ho) (h _)
    | identifier b =>
      refine ⟨b, .inl hw, fun o ho => ?_⟩
      cases o with
      | none => exact hn ho
      | some k => exact h _ (.const hw ho)

theorem outcome_follows {lo hi : Int} {a b : Str} {o : Option Int} (h : Outcome ds lo hi (.identifier a) o)
    (hf : Follows ds lo hi a b) : ∃ o', Outcome ds lo hi (.identifier b) o' := by
  rcases hf with hc | ⟨hn, hm⟩
  · cases h with
    | const hc' h' =>
      rw [hc] at hc'
      cases hc'
      exact ⟨_, h'⟩
    | member hn _ _ => exact ⟨_, hn _ hc⟩
    | unknown hn _ => exact ⟨_, hn _ hc⟩
  · cases h with
    | const hc' h' => exact absurd ((hn _ hc').unique h') (by simp)
    | member _ hm' h' =>
      rw [hm] at hm'
      cases hm'
      exact ⟨_, h'⟩
    | unknown _ hm' =>
      rw [hm] at hm'
      cases hm'

/-- No outcome, and an endless search, are the same. -/
theorem no_outcome_iff {lo hi : Int} {a : Str} :
    (∀ o, ¬ Outcome ds lo hi (.identifier a) o) ↔
      ∃ f : Nat → Str, f 0 = a ∧ ∀ i, Follows ds lo hi (f i) (f (i + 1)) := by
  constructor
  · intro h
    let S := { b : Str // ∀ o, ¬ Outcome ds lo hi (.identifier b) o }
    let next : S → S := fun s => ⟨(no_outcome_step s.2).choose, (no_outcome_step s.2).choose_spec.2⟩
    let g : Nat → S := fun i => Nat.rec ⟨a, h⟩ (fun _ s => next s) i
    exact ⟨fun i => (g i).1, rfl, fun i => (no_outcome_step (g i).2).choose_spec.1⟩
  · rintro ⟨f, rfl, hf⟩ o ho
    have key : ∀ v o, Outcome ds lo hi v o → ∀ i, v = .identifier (f i) → False := by
      intro v o h
      induction h with
      | literal => intro i h; cases h
      | unfit => intro i h; cases h
      | @const name w k hc _ ih =>
        intro i h
        cases h
        rcases hf i with hc' | ⟨hn, hm⟩
        · rw [hc] at hc'
          exact ih (i + 1) (Option.some.inj hc')
        · exact absurd ((hn _ hc).unique (by assumption)) (by simp)
      | @member name w o _ hm _ ihc ih =>
        intro i h
        cases h
        rcases hf i with hc' | ⟨hn, hm'⟩
        · exact ihc _ hc' (i + 1) rfl
        · rw [hm] at hm'
          exact ih (i + 1) (Option.some.inj hm')
      | @unknown name _ hm ihc =>
        intro i h
        cases h
        rcases hf i with hc' | ⟨hn, hm'⟩
        · exact ihc _ hc' (i + 1) rfl
        · rw [hm] at hm'
          cases hm'
    exact key _ o ho 0 rfl

end Xdr.Rpcgen
