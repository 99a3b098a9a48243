import Verif.Proofs.Writes
import Verif.Spec.Fits
import Verif.Spec.Form
/-! # Lemmas: which values come back -/

namespace Xdr

mutual
/-- `TryFrom` after `AsRef` gives back each variant. -/
def Ty.Inv (env : Env) : Ty → Prop
  | .option t => t.Inv env
  | .vec t => t.Inv env
  | .array _ t => t.Inv env
  | .tuple ts => InvAll env ts
  | .map k v => k.Inv env ∧ v.Inv env
  | .signed32 name impl => ∀ vars i vn sh, env name = some (.enum vars) → vars[i]? = some (vn, sh) →
      impl.try_from (impl.as_ref (.variant i [])) = .ok (.variant i [])
  | _ => True

def InvAll (env : Env) : List Ty → Prop
  | [] => True
  | t :: ts => t.Inv env ∧ InvAll env ts
end

/-- The number of a variant names it; variants of unions have their discriminant first. -/
def Def.Inv (env : Env) (d : Def) : Prop :=
  InvAll env d.types ∧
  match d with
  | .indexer vars impl => (vars.map (·.1)).Nodup ∧ (∀ v ∈ vars, (v.2.getD []).length ≤ 9) ∧
      ∀ i vn fs, vars[i]? = some (vn, fs) → ∀ vs idx, impl.index i vs = .ok idx → impl.name_by_index idx = .ok vn
  | .union disc vars _ => (vars.map (·.1)).Nodup ∧ ∀ v ∈ vars, ∃ ts, v.2 = some (disc :: ts) ∧ ts.length ≤ 9
  | _ => True

def EnvInv (env : Env) : Prop := ∀ name d, env name = some d → d.Inv env

theorem invAll_iff (env : Env) (ts : List Ty) : InvAll env ts ↔ ∀ t ∈ ts, t.Inv env := by
  induction ts with
  | nil => simp [InvAll]
  | cons t ts ih => simp [InvAll, ih]

theorem fitsAll_of {env : Env} {t : Ty} {vs : List Val} (h : ∀ p ∈ vs.map fun v => (t, v), Fits env p.1 p.2) :
    FitsAll env t vs := by
  induction vs with
  | nil => trivial
  | cons v vs ih => exact ⟨h (t, v) List.mem_cons_self, ih fun p hp => h p (List.mem_cons_of_mem _ hp)⟩

theorem fitsEach_of {env : Env} {ts : List Ty} {vs : List Val} (h : ∀ p ∈ ts.zip vs, Fits env p.1 p.2) :
    FitsEach env ts vs := by
  induction vs generalizing ts with
  | nil => cases ts <;> trivial
  | cons v vs ih =>
    cases ts with
    | nil => trivial
    | cons t ts => exact ⟨h (t, v) List.mem_cons_self, ih fun p hp => h p (List.mem_cons_of_mem _ hp)⟩

theorem fitsEntries_of {env : Env} {k t : Ty} {es : List (Val × Val)}
    (h : ∀ p ∈ es.flatMap fun e => [(k, e.1), (t, e.2)], Fits env p.1 p.2) : FitsEntries env k t es := by
  induction es with
  | nil => trivial
  | cons e es ih =>
    rw [List.flatMap_cons] at h
    exact ⟨h (k, e.1) (by simp), h (t, e.2) (by simp), ih fun p hp => h p (List.mem_append_right _ hp)⟩

theorem smallAll_mem {env : Env} {t : Ty} {vs : List Val} (h : SmallAll env t vs) :
    ∀ p ∈ vs.map fun v => (t, v), Small env p.1 p.2 := by
  induction vs with
  | nil => simp
  | cons v vs ih =>
    intro p hp
    rcases List.mem_cons.1 hp with rfl | hp
    · exact h.1
    · exact ih h.2 p hp

theorem smallEach_mem {env : Env} {ts : List Ty} {vs : List Val} (h : SmallEach env ts vs) :
    ∀ p ∈ ts.zip vs, Small env p.1 p.2 := by
  induction vs generalizing ts with
  | nil => simp
  | cons v vs ih =>
    cases ts with
    | nil => simp
    | cons t ts =>
      intro p hp
      rcases List.mem_cons.1 hp with rfl | hp
      · exact h.1
      · exact ih h.2 p hp

theorem smallEntries_mem {env : Env} {k t : Ty} {es : List (Val × Val)} (h : SmallEntries env k t es) :
    ∀ p ∈ es.flatMap fun e => [(k, e.1), (t, e.2)], Small env p.1 p.2 := by
  induction es with
  | nil => simp
  | cons e es ih =>
    intro p hp
    rw [List.flatMap_cons, List.mem_append] at hp
    rcases hp with hp | hp
    · simp only [List.mem_cons, List.not_mem_nil, or_false] at hp
      rcases hp with rfl | rfl
      · exact h.1
      · exact h.2.1
    · exact ih h.2.2 p hp

theorem parts_Small {env : Env} {t : Ty} {v : Val} {s : SVal} (h : Pres env t v s) (hs : Small env t v) :
    ∀ p ∈ parts env t v, Small env p.1 p.2 := by
  cases h with
  | some h =>
    intro p hp
    simp only [parts, List.mem_singleton] at hp
    subst hp
    simpa only [Small] using hs
  | vec h => simp only [Small] at hs; exact smallAll_mem hs.2
  | array h => simp only [Small] at hs; exact smallAll_mem hs
  | tuple h => simp only [Small] at hs; exact smallEach_mem hs
  | map hk h => simp only [Small] at hs; exact smallEntries_mem hs.2
  | newtypeStruct he h =>
    intro p hp
    simp only [parts, he, List.zip_cons_cons, List.zip_nil_left, List.mem_singleton] at hp
    subst hp
    simpa only [Small, he] using hs
  | tupleStruct he h => simp only [Small, he] at hs; simp only [parts, he]; exact smallEach_mem hs
  | struct he h => simp only [Small, he] at hs; simp only [parts, he]; exact smallEach_mem hs
  | enumNewtype he hi h =>
    intro p hp
    simp only [parts, he, hi, Option.map_some, Option.getD_some, Shape.types, List.zip_cons_cons, List.zip_nil_left,
      List.mem_singleton] at hp
    subst hp
    simp only [Small, he, hi] at hs
    exact hs.2
  | enumTuple he hi h =>
    simp only [Small, he, hi] at hs
    simp only [parts, he, hi, Option.map_some, Option.getD_some, Shape.types]; exact smallEach_mem hs.2
  | enumStruct he hi h =>
    simp only [Small, he, hi] at hs
    simp only [parts, he, hi, Option.map_some, Option.getD_some, Shape.types]; exact smallEach_mem hs.2
  | indexer he hi h =>
    simp only [Small, he, hi] at hs
    simp only [parts, he, hi, Option.bind_some, Option.getD_some]; exact smallEach_mem hs
  | union he hi h =>
    simp only [Small, he, hi] at hs
    simp only [parts, he, hi, Option.bind_some, Option.getD_some]; exact smallEach_mem hs
  | enumUnit he hi => simp [parts, he]
  | indexerUnit he hi => simp [parts, he]
  | unionUnit he hi => simp [parts, he]
  | _ => simp [parts]

theorem parts_Inv {env : Env} (henv : EnvInv env) {t : Ty} (ht : t.Inv env) {v : Val} :
    ∀ p ∈ parts env t v, p.1.Inv env := by
  have hzip : ∀ {ts : List Ty} {vs : List Val}, (∀ t ∈ ts, t.Inv env) → ∀ p ∈ ts.zip vs, p.1.Inv env :=
    fun h p hp => h _ (List.of_mem_zip hp).1
  have hdef : ∀ {name d}, env name = some d → ∀ t ∈ d.types, t.Inv env :=
    fun h => (invAll_iff env _).1 (henv _ _ h).1
  intro p hp
  unfold parts at hp
  split at hp
  · rw [List.mem_singleton] at hp
    subst hp
    simpa only [Ty.Inv] using ht
  · obtain ⟨x, -, rfl⟩ := List.mem_map.1 hp
    simpa only [Ty.Inv] using ht
  · obtain ⟨x, -, rfl⟩ := List.mem_map.1 hp
    simpa only [Ty.Inv] using ht
  · simp only [Ty.Inv] at ht
    exact hzip ((invAll_iff _ _).1 ht) p hp
  · simp only [Ty.Inv] at ht
    obtain ⟨e, -, hp⟩ := List.mem_flatMap.1 hp
    simp only [List.mem_cons, List.not_mem_nil, or_false] at hp
    rcases hp with rfl | rfl
    · exact ht.1
    · exact ht.2
  · split at hp
    · next t he => exact hzip (by simpa [Def.types] using hdef he) p hp
    · next ts he => exact hzip (by simpa [Def.types] using hdef he) p hp
    · next fs he => exact hzip (by simpa only [Def.types] using hdef he) p hp
    · cases hp
  · split at hp
    · next vars he =>
      refine hzip (fun t ht => hdef he t ?_) p hp
      simp only [Def.types, List.mem_flatMap]
      rename_i i _ _ _
      cases hi : vars[i]? with
      | none => simp [hi] at ht
      | some w =>
        rw [hi] at ht
        exact ⟨w, List.mem_of_getElem? hi, ht⟩
    · next vars impl he =>
      refine hzip (fun t ht => hdef he t ?_) p hp
      simp only [Def.types, List.mem_flatMap]
      rename_i i _ _ _
      cases hi : vars[i]? with
      | none => simp [hi] at ht
      | some w =>
        rw [hi] at ht
        exact ⟨w, List.mem_of_getElem? hi, ht⟩
    · next disc vars impl he =>
      refine hzip (fun t ht => hdef he t ?_) p hp
      simp only [Def.types, List.mem_cons, List.mem_flatMap]
      rename_i i _ _ _
      right
      cases hi : vars[i]? with
      | none => simp [hi] at ht
      | some w =>
        rw [hi] at ht
        exact ⟨w, List.mem_of_getElem? hi, ht⟩
    · cases hp
  · cases hp

theorem first_name {α : Type} {vs : List (String × α)} (h : (vs.map (·.1)).Nodup) {i : Nat} {s : String} {a : α}
    (hi : vs[i]? = some (s, a)) : ∀ j < i, ∀ x, vs[j]? = some x → x.1 ≠ s := by
  intro j hj x hx hs
  obtain ⟨h1, h2⟩ := List.getElem?_eq_some_iff.1 hi
  obtain ⟨h3, h4⟩ := List.getElem?_eq_some_iff.1 hx
  have := (List.pairwise_iff_getElem.1 h) j i (by simpa using h3) (by simpa using h1) hj
  simp [h2, h4, hs] at this

/-- A value of a program with such functions, which is written, comes back. -/
theorem fits_of {env : Env} (henv : EnvInv env) : ∀ (n : Nat) {t : Ty} {v : Val} {s : SVal}, sizeOf v ≤ n →
    Pres env t v s → Small env t v → t.Inv env → (toBytes env t v).Good → Selected env t v → Fits env t v
  | 0, _, v, _, hn, _, _, _, _, _ => by cases v <;> simp at hn
  | n + 1, t, v, s, hn, h, hs, ht, hg, hsel => by
    have hsum := (sums h).1.1 hg
    have hparts : ∀ p ∈ parts env t v, Fits env p.1 p.2 := by
      intro p hp
      obtain ⟨s', h'⟩ := parts_pres h p hp
      have hlt := parts_small hp
      have hg' := hsum.2
      unfold partsBytes at hg'
      rw [good_concat] at hg'
      exact fits_of henv n (by omega) h' (parts_Small h hs p hp) (parts_Inv henv ht p hp)
        (hg' _ (List.mem_map.2 ⟨p, hp, rfl⟩))
        (fun name i d vs disc vars impl vn fs hv => hsel name i d vs disc vars impl vn fs (.part hp hv))
    have hindex : ∀ {name i vs vars impl}, t = .named name → v = .variant i vs → env name = some (.indexer vars impl) →
        ∃ idx, impl.index i vs = .ok idx := by
      rintro name i vs vars impl rfl rfl he
      cases hi : impl.index i vs with
      | ok idx => exact ⟨idx, rfl⟩
      | err e => exact absurd ⟨_, _, _, rfl, rfl, .err he hi⟩ (hsum.1 _)
      | panic p => exact absurd ⟨_, _, _, rfl, rfl, .panic he hi⟩ (hsum.1 _)
      | depth => exact absurd ⟨_, _, _, rfl, rfl, .depth he hi⟩ (hsum.1 _)
    cases h with
    | some h =>
      simp only [Fits]
      exact hparts _ List.mem_cons_self
    | vec h =>
      simp only [Small] at hs
      simp only [Fits]
      exact ⟨hs.1, fitsAll_of hparts⟩
    | array h =>
      simp only [Fits]
      exact fitsAll_of hparts
    | tuple h =>
      simp only [Fits]
      exact fitsEach_of hparts
    | map hk h =>
      simp only [Small] at hs
      simp only [Fits]
      exact ⟨hs.1, fitsEntries_of hparts⟩
    | signed32 he hi =>
      simp only [Ty.Inv] at ht
      simp only [Fits]
      exact ht _ _ _ _ he hi
    | newtypeStruct he h =>
      simp only [parts, he] at hparts
      simp only [Fits, he]
      exact hparts _ List.mem_cons_self
    | tupleStruct he h =>
      simp only [parts, he] at hparts
      simp only [Fits, he]
      exact fitsEach_of hparts
    | struct he h =>
      simp only [parts, he] at hparts
      simp only [Fits, he]
      exact fitsEach_of hparts
    | enumUnit he hi =>
      simp only [Small, he, hi] at hs
      simp only [Fits, he, hi]
      exact hs
    | enumNewtype he hi h =>
      simp only [parts, he, hi, Option.map_some, Option.getD_some, Shape.types] at hparts
      simp only [Small, he, hi] at hs
      simp only [Fits, he, hi]
      exact ⟨hs.1, hparts _ List.mem_cons_self⟩
    | enumTuple he hi h =>
      simp only [parts, he, hi, Option.map_some, Option.getD_some, Shape.types] at hparts
      simp only [Small, he, hi] at hs
      simp only [Fits, he, hi]
      exact ⟨hs.1, fitsEach_of hparts⟩
    | enumStruct he hi h =>
      simp only [parts, he, hi, Option.map_some, Option.getD_some, Shape.types] at hparts
      simp only [Small, he, hi] at hs
      simp only [Fits, he, hi]
      exact ⟨hs.1, fitsEach_of hparts⟩
    | indexerUnit he hi =>
      obtain ⟨-, h1, h2, h3⟩ := henv _ _ he
      obtain ⟨idx, hidx⟩ := hindex rfl rfl he
      simp only [Fits, he, hi]
      exact ⟨⟨idx, hidx, h3 _ _ _ hi _ _ hidx⟩, first_name h1 hi, trivial⟩
    | indexer he hi h =>
      obtain ⟨-, h1, h2, h3⟩ := henv _ _ he
      obtain ⟨idx, hidx⟩ := hindex rfl rfl he
      simp only [parts, he, hi, Option.bind_some, Option.getD_some] at hparts
      simp only [Fits, he, hi]
      exact ⟨⟨idx, hidx, h3 _ _ _ hi _ _ hidx⟩, first_name h1 hi, h2 _ (List.mem_of_getElem? hi), fitsEach_of hparts⟩
    | unionUnit he hi =>
      obtain ⟨-, h1, h2⟩ := henv _ _ he
      obtain ⟨ts, h3, -⟩ := h2 _ (List.mem_of_getElem? hi)
      cases h3
    | union he hi h =>
      obtain ⟨-, h1, h2⟩ := henv _ _ he
      obtain ⟨ts, h3, h4⟩ := h2 _ (List.mem_of_getElem? hi)
      simp only [Option.some.injEq] at h3
      subst h3
      simp only [parts, he, hi, Option.bind_some, Option.getD_some] at hparts
      simp only [Fits, he, hi]
      cases h with
      | cons h5 h6 =>
        exact ⟨⟨ts, _, _, rfl, rfl, h4, hsel _ _ _ _ _ _ _ _ _ .here he hi⟩, first_name h1 hi, fitsEach_of hparts⟩
    | string => simpa only [Fits, Small] using hs
    | bytes => simpa only [Fits, Small] using hs
    | opaqueVar => simpa only [Fits, Small] using hs
    | unitStruct he => simp only [Fits, he]
    | _ => simp only [Fits]

/-! ## The converse -/

def Val.Formed (env : Env) (t : Ty) (v : Val) : Prop := ∃ b, Wire.Form env t v b

theorem forms_zip {env : Env} {vs : List Val} : ∀ {ts : List Ty} {bs : Bytes}, Wire.Forms env ts vs bs →
    ∀ p ∈ ts.zip vs, p.2.Formed env p.1 := by
  induction vs with
  | nil => intro ts bs _; simp
  | cons v vs ih =>
    intro ts bs h p hp
    cases h with
    | cons h1 h2 =>
      rcases List.mem_cons.1 hp with rfl | hp
      · exact ⟨_, h1⟩
      · exact ih h2 p hp

theorem forms_replicate {env : Env} {t : Ty} {vs : List Val} : ∀ {k : Nat} {bs : Bytes},
    Wire.Forms env (List.replicate k t) vs bs → ∀ p ∈ vs.map fun v => (t, v), p.2.Formed env p.1 := by
  induction vs with
  | nil => intro k bs _; simp
  | cons v vs ih =>
    intro k bs h p hp
    cases k with
    | zero => cases h
    | succ k =>
      rw [List.replicate_succ] at h
      cases h with
      | cons h1 h2 =>
        rcases List.mem_cons.1 hp with rfl | hp
        · exact ⟨_, h1⟩
        · exact ih h2 p hp

theorem pairs_formed {env : Env} {a b : Ty} {ps : List (Val × Val)} : ∀ {bs : Bytes}, Wire.Pairs env a b ps bs →
    ∀ p ∈ ps, p.1.Formed env a ∧ p.2.Formed env b := by
  induction ps with
  | nil => intro bs _; simp
  | cons q ps ih =>
    intro bs h p hp
    cases h with
    | cons h1 h2 h3 =>
      rcases List.mem_cons.1 hp with rfl | hp
      · exact ⟨⟨_, h1⟩, _, h2⟩
      · exact ih h3 p hp

theorem folded_mem {ps es : List (Val × Val)} (h : Wire.Folded ps es) {P Q : Val → Prop}
    (hp : ∀ p ∈ ps, P p.1 ∧ Q p.2) : ∀ e ∈ es, P e.1 ∧ Q e.2 := by
  induction h with
  | nil => simp
  | fresh h1 h2 ih =>
    intro e he
    rcases List.mem_append.1 he with he | he
    · exact ih (fun p hm => hp p (List.mem_append_left _ hm)) e he
    · rw [List.mem_singleton] at he
      subst he
      exact hp _ (by simp)
  | again h1 h2 ih =>
    have ih := ih fun p hm => hp p (List.mem_append_left _ hm)
    have hl := hp _ (List.mem_append_right _ List.mem_cons_self)
    intro e he
    rcases List.mem_append.1 he with he | he
    · exact ih e (List.mem_append_left _ he)
    · rcases List.mem_cons.1 he with rfl | he
      · exact hl
      · exact ih e (List.mem_append_right _ (List.mem_cons_of_mem _ he))

/-- What is inside a value that was read could be read. -/
theorem parts_formed {env : Env} (henv : EnvInv env) {t : Ty} {v : Val} (h : v.Formed env t) :
    ∀ p ∈ parts env t v, p.2.Formed env p.1 := by
  obtain ⟨b, h⟩ := h
  cases h with
  | some h1 h2 h =>
    intro p hp
    simp only [parts, List.mem_singleton] at hp
    subst hp
    exact ⟨_, h⟩
  | vec h1 h => exact forms_replicate h
  | array h => exact forms_replicate h
  | tuple h => exact forms_zip h
  | map h1 h h2 =>
    intro p hp
    simp only [parts, List.mem_flatMap, List.mem_cons, List.not_mem_nil, or_false] at hp
    obtain ⟨e, he, hp⟩ := hp
    have := folded_mem h2 (pairs_formed h) e he
    rcases hp with rfl | rfl
    · exact this.1
    · exact this.2
  | newtypeStruct he h =>
    simp only [parts, he]
    intro p hp
    simp only [List.zip_cons_cons, List.zip_nil_left, List.mem_singleton] at hp
    subst hp
    exact ⟨_, h⟩
  | tupleStruct he h => simp only [parts, he]; exact forms_zip h
  | struct he h => simp only [parts, he]; exact forms_zip h
  | enum he h1 hi h =>
    simp only [parts, he, hi, Option.map_some, Option.getD_some]
    exact forms_zip h
  | indexer he h1 h2 hi h3 h =>
    simp only [parts, he, hi.1, Option.bind_some]
    exact forms_zip h
  | union he h1 h2 hi h3 h =>
    simp only [parts, he, hi.1, Option.bind_some, Option.getD_some]
    obtain ⟨-, -, h5⟩ := henv _ _ he
    obtain ⟨ts, h6, -⟩ := h5 _ (List.mem_of_getElem? hi.1)
    cases h6
    intro p hp
    rcases List.mem_cons.1 hp with rfl | hp
    · exact ⟨_, h1⟩
    · exact forms_zip h p hp
  | unionUnit he h1 h2 hi h3 => simp [parts, he]
  | signed32 => simp [parts]
  | unitStruct => simp [parts]
  | _ => simp [parts]

/-- Reading selects variants by their discriminants. -/
theorem selected_of_formed {env : Env} (henv : EnvInv env) {t : Ty} {v : Val} (h : v.Formed env t) :
    Selected env t v := by
  intro name i d vs disc vars impl vn fs hc he hi
  induction hc with
  | part hm _ ih => exact ih (parts_formed henv h _ hm)
  | here =>
    obtain ⟨b, h⟩ := h
    generalize hn : Ty.named name = t at h
    generalize hv : Val.variant i (d :: vs) = v at h
    cases h with
    | union he' h1 h2 hi' h3 h =>
      cases hn
      cases hv
      rw [he] at he'
      cases he'
      have := hi'.1
      rw [hi] at this
      cases this
      exact h2
    | enum he' | indexer he' | unitStruct he' | newtypeStruct he' | tupleStruct he' | struct he' =>
      cases hn
      rw [he] at he'
      cases he'
    | unionUnit => cases hv
    | _ => cases hn

end Xdr
