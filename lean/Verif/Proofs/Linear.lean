import Verif.Props.Resources
import Verif.Props.Work
/-!
# Programs whose values have a bounded number of parts
-/

namespace Xdr

mutual
/-- The types in a type. -/
def Ty.subs : Ty → List Ty
  | .option t => .option t :: t.subs
  | .vec t => .vec t :: t.subs
  | .array n t => .array n t :: t.subs
  | .tuple ts => .tuple ts :: subsOf ts
  | .map k v => .map k v :: (k.subs ++ v.subs)
  | t => [t]

def subsOf : List Ty → List Ty
  | [] => []
  | t :: ts => t.subs ++ subsOf ts
end

theorem self_mem_subs (t : Ty) : t ∈ t.subs := by
  cases t <;> simp [Ty.subs]

theorem mem_subsOf {t : Ty} {ts : List Ty} (h : t ∈ ts) : t ∈ subsOf ts := by
  induction ts with
  | nil => cases h
  | cons u ts ih =>
    simp only [subsOf, List.mem_append]
    rcases List.mem_cons.1 h with rfl | h
    · exact .inl (self_mem_subs _)
    · exact .inr (ih h)

section
variable {env : Env}

/-- The parts of a type in a type are in the type or are field types of a definition. -/
def PartsIn (env : Env) (l : List Ty) : Prop :=
  ∀ u ∈ l, ∀ w ∈ u.parts env, w ∈ l ∨ ∃ x d, env x = some d ∧ w ∈ d.types

theorem PartsIn.append {l l' : List Ty} (h : PartsIn env l) (h' : PartsIn env l') : PartsIn env (l ++ l') := by
  intro u hu w hw
  simp only [List.mem_append]
  rcases List.mem_append.1 hu with hu | hu
  · rcases h u hu w hw with h | h
    · exact .inl (.inl h)
    · exact .inr h
  · rcases h' u hu w hw with h | h
    · exact .inl (.inr h)
    · exact .inr h

theorem PartsIn.cons {t : Ty} {l : List Ty} (ht : ∀ w ∈ t.parts env, w ∈ l) (h : PartsIn env l) :
    PartsIn env (t :: l) := by
  intro u hu w hw
  simp only [List.mem_cons]
  rcases List.mem_cons.1 hu with rfl | hu
  · exact .inl (.inr (ht w hw))
  · rcases h u hu w hw with h | h
    · exact .inl (.inr h)
    · exact .inr h

theorem PartsIn.leaf {t : Ty} (ht : t.parts env = []) : PartsIn env [t] :=
  .cons (by rw [ht]; simp) (by intro u hu; cases hu)

mutual
theorem subs_parts : ∀ t : Ty, PartsIn env t.subs
  | .option t => by
    rw [Ty.subs]
    exact .cons (by simp [Ty.parts, self_mem_subs]) (subs_parts t)
  | .vec t => by
    rw [Ty.subs]
    exact .cons (by simp [Ty.parts, self_mem_subs]) (subs_parts t)
  | .array n t => by
    rw [Ty.subs]
    exact .cons (by simp [Ty.parts, self_mem_subs]) (subs_parts t)
  | .tuple ts => by
    rw [Ty.subs]
    exact .cons (fun w hw => mem_subsOf hw) (subsOf_parts ts)
  | .map k v => by
    rw [Ty.subs]
    exact .cons (by simp [Ty.parts, self_mem_subs]) ((subs_parts k).append (subs_parts v))
  | .named name => by
    simp only [Ty.subs]
    intro u hu w hw
    rw [List.mem_singleton] at hu
    subst hu
    simp only [Ty.parts] at hw
    split at hw
    · cases hw
    · next d hd => exact .inr ⟨name, d, hd, hw⟩
  | .bool => .leaf rfl
  | .i8 => .leaf rfl
  | .i16 => .leaf rfl
  | .i32 => .leaf rfl
  | .i64 => .leaf rfl
  | .u8 => .leaf rfl
  | .u16 => .leaf rfl
  | .u32 => .leaf rfl
  | .u64 => .leaf rfl
  | .f32 => .leaf rfl
  | .f64 => .leaf rfl
  | .char => .leaf rfl
  | .string => .leaf rfl
  | .bytes => .leaf rfl
  | .unit => .leaf rfl
  | .opaqueFixed _ => .leaf rfl
  | .opaqueVar => .leaf rfl
  | .signed32 _ _ => .leaf rfl

theorem subsOf_parts : ∀ ts : List Ty, PartsIn env (subsOf ts)
  | [] => by intro u hu; cases hu
  | t :: ts => by
    rw [subsOf]
    exact (subs_parts t).append (subsOf_parts ts)
end

end

/-- The types a value of type `t` of the program is made of. -/
def allTypes (defs : List (String × Def)) (t : Ty) : List Ty := t.subs ++ subsOf (defs.flatMap fun d => d.2.types)

theorem mem_allTypes {defs : List (String × Def)} {t u : Ty} (h : Reaches (program defs) t u) :
    u ∈ allTypes defs t := by
  induction h with
  | refl => exact List.mem_append_left _ (self_mem_subs t)
  | tail _ h ih =>
    rcases ((subs_parts t).append (subsOf_parts _)) _ ih _ h with h | ⟨x, d, h1, h2⟩
    · exact h
    · refine List.mem_append_right _ (mem_subsOf ?_)
      rw [List.mem_flatMap]
      exact ⟨(x, d), program_mem h1, h2⟩

section
variable {defs : List (String × Def)}

mutual
theorem weighs_ty {r : Nat} (ih : ∀ x, (program defs x).isSome → reachRank defs x < r → ∃ k, Weighs (program defs) (.named x) k) :
    ∀ t : Ty, (∀ x ∈ t.bare, (program defs x).isSome → reachRank defs x < r) → ∃ k, Weighs (program defs) t k
  | .array n t, h => by
    obtain ⟨k, hk⟩ := weighs_ty ih t (by simpa [Ty.bare] using h)
    have : ∀ n, ∃ k, WeighTogether (program defs) (List.replicate n t) k := by
      intro n
      induction n with
      | zero => exact ⟨_, .nil⟩
      | succ n ihn =>
        obtain ⟨l, hl⟩ := ihn
        exact ⟨_, .cons hk hl⟩
    obtain ⟨l, hl⟩ := this n
    exact ⟨_, .mk hl⟩
  | .tuple ts, h => by
    obtain ⟨k, hk⟩ := weighs_tys ih ts (by simpa [Ty.bare] using h)
    exact ⟨_, .mk hk⟩
  | .named x, h => by
    cases hx : program defs x with
    | none =>
      refine ⟨1 + 0, .mk ?_⟩
      simp only [Ty.always, hx]
      exact .nil
    | some d =>
      have hs : (program defs x).isSome := by rw [hx]; rfl
      exact ih x hs (h x (by simp [Ty.bare]) hs)
  | .option t, _ => ⟨_, .mk .nil⟩
  | .vec t, _ => ⟨_, .mk .nil⟩
  | .map k v, _ => ⟨_, .mk .nil⟩
  | .bool, _ => ⟨_, .mk .nil⟩
  | .i8, _ => ⟨_, .mk .nil⟩
  | .i16, _ => ⟨_, .mk .nil⟩
  | .i32, _ => ⟨_, .mk .nil⟩
  | .i64, _ => ⟨_, .mk .nil⟩
  | .u8, _ => ⟨_, .mk .nil⟩
  | .u16, _ => ⟨_, .mk .nil⟩
  | .u32, _ => ⟨_, .mk .nil⟩
  | .u64, _ => ⟨_, .mk .nil⟩
  | .f32, _ => ⟨_, .mk .nil⟩
  | .f64, _ => ⟨_, .mk .nil⟩
  | .char, _ => ⟨_, .mk .nil⟩
  | .string, _ => ⟨_, .mk .nil⟩
  | .bytes, _ => ⟨_, .mk .nil⟩
  | .unit, _ => ⟨_, .mk .nil⟩
  | .opaqueFixed _, _ => ⟨_, .mk .nil⟩
  | .opaqueVar, _ => ⟨_, .mk .nil⟩
  | .signed32 _ _, _ => ⟨_, .mk .nil⟩

theorem weighs_tys {r : Nat} (ih : ∀ x, (program defs x).isSome → reachRank defs x < r → ∃ k, Weighs (program defs) (.named x) k) :
    ∀ ts : List Ty, (∀ x ∈ baresOf ts, (program defs x).isSome → reachRank defs x < r) →
      ∃ k, WeighTogether (program defs) ts k
  | [], _ => ⟨_, .nil⟩
  | t :: ts, h => by
    simp only [baresOf, List.mem_append] at h
    obtain ⟨k, hk⟩ := weighs_ty ih t fun x hx => h x (.inl hx)
    obtain ⟨l, hl⟩ := weighs_tys ih ts fun x hx => h x (.inr hx)
    exact ⟨_, .cons hk hl⟩
end

/-- If no type always contains itself, values of every type have a least number of parts. -/
theorem weighs_named (hguarded : ∀ x, ¬ Relation.TransGen (Refers (program defs)) x x) (x : String) :
    ∃ k, Weighs (program defs) (.named x) k := by
  generalize hr : reachRank defs x = r
  induction r using Nat.strongRecOn generalizing x with
  | ind r ih =>
    cases hx : program defs x with
    | none =>
      refine ⟨1 + 0, .mk ?_⟩
      simp only [Ty.always, hx]
      exact .nil
    | some d =>
      have ih' : ∀ y, (program defs y).isSome → reachRank defs y < r → ∃ k, Weighs (program defs) (.named y) k :=
        fun y _ hy => ih _ hy y rfl
      have hb : ∀ y ∈ d.bare, (program defs y).isSome → reachRank defs y < r := fun y hy hs => by
        rw [← hr]
        exact reachRank_lt hguarded ⟨d, hx, hy⟩ hs
      have key : ∃ k, WeighTogether (program defs) ((Ty.named x).always (program defs)) k := by
        simp only [Ty.always, hx]
        cases d with
        | newtypeStruct t =>
          obtain ⟨k, hk⟩ := weighs_ty ih' t hb
          exact ⟨_, .cons hk .nil⟩
        | union disc _ _ =>
          obtain ⟨k, hk⟩ := weighs_ty ih' disc hb
          exact ⟨_, .cons hk .nil⟩
        | tupleStruct ts => exact weighs_tys ih' ts hb
        | struct fs => exact weighs_tys ih' _ hb
        | unitStruct => exact ⟨_, .nil⟩
        | enum _ => exact ⟨_, .nil⟩
        | indexer _ _ => exact ⟨_, .nil⟩
      obtain ⟨k, hk⟩ := key
      exact ⟨_, .mk hk⟩

theorem weighs_group (hguarded : ∀ x, ¬ Relation.TransGen (Refers (program defs)) x x) (ts : List Ty) :
    ∃ k, WeighTogether (program defs) ts k :=
  weighs_tys (r := defs.length + 1) (fun x _ _ => weighs_named hguarded x) ts
    (fun x _ _ => Nat.lt_succ_of_le (reachRank_le defs x))

theorem weighs (hguarded : ∀ x, ¬ Relation.TransGen (Refers (program defs)) x x) (t : Ty) :
    ∃ k, Weighs (program defs) t k :=
  weighs_ty (r := defs.length + 1) (fun x _ _ => weighs_named hguarded x) t
    (fun x _ _ => Nat.lt_succ_of_le (reachRank_le defs x))

/-- One bound for finitely many groups. -/
theorem groups_bound (hguarded : ∀ x, ¬ Relation.TransGen (Refers (program defs)) x x) (gs : List (List Ty)) :
    ∃ W, 1 ≤ W ∧ ∀ g ∈ gs, ∃ k ≤ W, WeighTogether (program defs) g k := by
  induction gs with
  | nil => exact ⟨1, Nat.le_refl _, by simp⟩
  | cons g gs ih =>
    obtain ⟨W, hW, h⟩ := ih
    obtain ⟨k, hk⟩ := weighs_group hguarded g
    refine ⟨max W k, by omega, ?_⟩
    intro g' hg'
    rcases List.mem_cons.1 hg' with rfl | hg'
    · exact ⟨k, by omega, hk⟩
    · obtain ⟨l, hl, h⟩ := h g' hg'
      exact ⟨l, by omega, h⟩

theorem groups_within (hguarded : ∀ x, ¬ Relation.TransGen (Refers (program defs)) x x) (t : Ty) :
    ∃ W, 1 ≤ W ∧ GroupsWithin (program defs) W t := by
  obtain ⟨W, hW, h⟩ := groups_bound hguarded ((allTypes defs t).flatMap fun u => u.groups (program defs))
  refine ⟨W, hW, fun u hu g hg => h g ?_⟩
  rw [List.mem_flatMap]
  exact ⟨u, mem_allTypes hu, hg⟩

end

end Xdr
