import Verif.Model.Work
import Verif.Proofs.Reserve
import Verif.Spec.Work
/-! # Lemmas: the work of decoding -/

namespace Xdr

/-! ## The results are those of the decoder -/

theorem A.run_step {α : Type} (m : A α) : (A.step >>= fun _ => m).run = m.run := by
  rw [A.run_bind]; rfl

theorem run_loopW (size : Nat) : ∀ (n : Nat) (seq : Seq) (st : Bytes × Nat),
    (enumerate_u8_loopW size n seq st).run = enumerate_u8_loop size n seq st := by
  intro n
  induction n with
  | zero => intro seq st; rfl
  | succ n ih =>
    intro seq st
    rw [enumerate_u8_loopW, enumerate_u8_loop, A.run_bind, run_next]
    congr 1
    funext ⟨o, seq'⟩
    cases o with
    | none => exact ih _ _
    | some v =>
      show A.run (_ >>= _) = _
      rw [A.run_step, ih]

theorem run_enumerateW (seq : Seq) : (enumerate_u8W seq).run = enumerate_u8 seq := run_loopW _ _ _ _

theorem run_fixedW (n : Nat) (seq : Seq) : (visitFixedW n seq).run = visitFixed n seq := by
  rw [visitFixedW, visitFixed, A.run_bind, run_enumerateW]
  congr 1
  funext v
  show A.run (ite _ _ _) = ite _ _ _
  split <;> rfl

theorem run_deTyW (env : Env) (n : Nat) (t : Ty) : (deTyW env n t).run = deTy env n t := by
  induction n generalizing t with
  | zero => rfl
  | succ n ih =>
    have ih' : (fun t => (deTyW env n t).run) = deTy env n := funext ih
    cases t with
    | option t =>
      rw [deTyW, A.run_step]
      rw [deTy, A.run_bind]
      unfold deserialize_option
      congr 1
      funext v
      show A.run (ite _ _ _) = ite _ _ _
      split
      · rfl
      · rw [A.run_bind, ih]; rfl
    | vec t =>
      rw [deTyW, A.run_step]
      rw [deTy, A.run_bind]
      unfold deserialize_seq
      rw [M.bind_assoc']
      congr 1
      funext v
      dsimp only
      rw [A.run_bind, run_visitVec, ih]; rfl
    | array len t =>
      rw [deTyW, A.run_step]
      rw [deTy, A.run_bind, run_visitEach, List.map_replicate, ih]; rfl
    | tuple ts =>
      rw [deTyW, A.run_step]
      rw [deTy, A.run_bind, run_visitEach, map_run, ih']; rfl
    | map k v =>
      rw [deTyW, A.run_step]
      rw [deTy, A.run_bind]
      unfold deserialize_map
      rw [M.bind_assoc']
      congr 1
      funext w
      dsimp only
      rw [A.run_bind, run_visitMap, ih, ih]; rfl
    | opaqueFixed len =>
      rw [deTyW, A.run_step]
      rw [deTy, A.run_bind, run_fixedW]; rfl
    | opaqueVar =>
      rw [deTyW, A.run_step]
      rw [deTy, A.run_bind]
      unfold variable_deserialize deserialize_seq
      rw [M.bind_assoc']
      congr 1
      funext w
      dsimp only
      rw [A.run_bind, run_enumerateW]; rfl
    | named name =>
      rw [deTyW, A.run_step]
      rw [deTy]
      cases env name with
      | none => rfl
      | some d =>
        dsimp only
        rw [run_def, ih']
    | bool | i8 | i16 | i32 | i64 | u8 | u16 | u32 | u64 | f32 | f64 | char | string | bytes | unit
    | signed32 => rfl

/-! ## The amounts -/

/-- The work is at most `c`, and `3 * W` for every word taken; on success so much less. -/
def Due (W c σ : Nat) {α : Type} (s : Bytes) : Nat × Res (α × Bytes) → Prop
  | (k, .ok (_, r)) => 4 * k + 3 * W * r.length + W * σ ≤ 4 * c + 3 * W * s.length
  | (k, _) => 4 * k ≤ 4 * c + 3 * W * s.length

/-- So on every input. -/
def Toll (W c σ : Nat) {α : Type} (m : A α) : Prop := ∀ s, Due W c σ s (m s)

theorem Toll.lift {W w : Nat} {α : Type} {d : De α} (h : Eats w d) : Toll W 0 (3 * w) (A.lift d) := by
  intro s
  show Due W 0 (3 * w) s (0, d s)
  cases hd : d s with
  | ok x =>
    obtain ⟨a, r⟩ := x
    have h1 := Nat.mul_le_mul_left (3 * W) (h _ _ _ hd)
    rw [Nat.mul_add] at h1
    have h2 : W * (3 * w) = 3 * W * w := by rw [Nat.mul_left_comm, Nat.mul_assoc]
    simp only [Due]
    omega
  | err e => simp only [Due]; omega
  | panic e => simp only [Due]; omega
  | depth => simp only [Due]; omega

theorem Toll.word {W : Nat} {α : Type} {d : De α} (h : Eats 4 d) : Toll W 0 12 (A.lift d) := Toll.lift h

theorem Toll.stop {W c σ : Nat} {α : Type} {d : De α} (h : ∀ s x, d s ≠ .ok x) :
    Toll W c σ (A.lift d) := by
  intro s
  show Due W c σ s (0, d s)
  cases hd : d s with
  | ok x => exact absurd hd (h _ _)
  | err e => simp only [Due]; omega
  | panic e => simp only [Due]; omega
  | depth => simp only [Due]; omega

theorem Toll.pure {W c : Nat} {α : Type} (a : α) : Toll W c 0 (Pure.pure a : A α) := by
  intro s
  show 4 * 0 + 3 * W * s.length + W * 0 ≤ 4 * c + 3 * W * s.length
  omega

theorem Toll.step {W : Nat} : Toll W 1 0 A.step := by
  intro s
  show 4 * 1 + 3 * W * s.length + W * 0 ≤ 4 * 1 + 3 * W * s.length
  omega

theorem Toll.bind {W c d σ τ : Nat} {α β : Type} {m : A α} {f : α → A β} (hm : Toll W c σ m)
    (hf : ∀ a, Toll W d τ (f a)) : Toll W (c + d) (σ + τ) (m >>= f) := by
  intro s
  have h := hm s
  rw [A.bind_def]
  rcases hx : m s with ⟨c, ⟨a, r⟩ | e | p | _⟩ <;> rw [hx] at h <;> simp only [Due] at h ⊢
  · have g := hf a r
    rcases hy : f a r with ⟨c', ⟨b, q⟩ | e | p | _⟩ <;> rw [hy] at g <;> simp only [Due] at g ⊢
    · rw [Nat.mul_add W]
      omega
    all_goals omega
  all_goals omega

theorem Toll.weaken {W c d σ τ : Nat} {α : Type} {m : A α} (h : Toll W c σ m) (hc : c ≤ d)
    (hs : τ ≤ σ) : Toll W d τ m := by
  intro s
  have h := h s
  have := Nat.mul_le_mul_left W hs
  rcases hx : m s with ⟨c, ⟨a, r⟩ | e | p | _⟩ <;> rw [hx] at h <;> simp only [Due] at h ⊢ <;> omega

theorem Toll.then {W c σ : Nat} {α β : Type} {m : A α} {f : α → A β} (hm : Toll W c σ m)
    (hf : ∀ a, Toll W 0 0 (f a)) : Toll W c σ (m >>= f) := Toll.bind hm hf

/-- What is saved pays for what follows. -/
theorem Toll.pay {W c d σ τ : Nat} {α β : Type} {m : A α} {f : α → A β} (hm : Toll W c (σ + 4) m)
    (hd : d ≤ W) (hf : ∀ a, Toll W d τ (f a)) : Toll W c (σ + τ) (m >>= f) := by
  intro s
  have h := hm s
  rw [A.bind_def]
  rcases hx : m s with ⟨c, ⟨a, r⟩ | e | p | _⟩ <;> rw [hx] at h <;> simp only [Due] at h ⊢
  · have g := hf a r
    rw [Nat.mul_add W] at h
    rcases hy : f a r with ⟨c', ⟨b, q⟩ | e | p | _⟩ <;> rw [hy] at g <;> simp only [Due] at g ⊢
    · rw [Nat.mul_add W]
      omega
    all_goals omega
  all_goals omega

theorem Toll.count {W c σ : Nat} {α : Type} {m : A α} (hm : Toll W c σ m) :
    Toll W (1 + c) σ (A.step >>= fun _ => m) :=
  (Toll.bind Toll.step fun _ => hm).weaken (Nat.le_refl _) (by omega)

open Classical in
/-- What decoding a value of the type saves. -/
noncomputable def saved (env : Env) (t : Ty) : Nat :=
  if t.Simple env then 8 else if Sized env t then 4 else 0

theorem saved_simple {env : Env} {t : Ty} (h : t.Simple env) : saved env t = 8 := if_pos h

theorem saved_sized {env : Env} {t : Ty} (h : Sized env t) : 4 ≤ saved env t := by
  unfold saved; split
  · omega
  · exact Nat.le_refl _

theorem saved_le (env : Env) (t : Ty) : saved env t ≤ 8 := by
  unfold saved; split
  · omega
  · split <;> omega

theorem saved_le_of {env : Env} {t : Ty} {k : Nat} (h0 : ¬ t.Simple env) (h : Sized env t → 4 ≤ k) :
    saved env t ≤ k := by
  unfold saved
  rw [if_neg h0]
  split
  · exact h ‹_›
  · omega

theorem saved_sum {env : Env} {ts : List Ty} (h : SizedSome env ts) :
    4 ≤ (ts.map (saved env)).sum := by
  induction ts with
  | nil => cases h
  | cons t ts ih =>
    rw [List.map_cons, List.sum_cons]
    cases h with
    | head h => have := saved_sized h; omega
    | tail h => have := ih h; omega

/-- The field decoder keeps to the bound for the types of the list. -/
def Pays (env : Env) (W : Nat) (field : Ty → A Val) (t : Ty) : Prop :=
  ∀ k, Weighs env t k → Toll W k (saved env t) (field t)

theorem toll_visitEach {env : Env} {W : Nat} {field : Ty → A Val} {exp : String} (ts : List Ty) :
    ∀ {k : Nat}, WeighTogether env ts k → (∀ t ∈ ts, Pays env W field t) → ∀ i,
    Toll W k (ts.map (saved env)).sum (visitEachA exp (ts.map field) i { count := ts.length }) := by
  induction ts with
  | nil => intro k hk _ i; exact .pure _
  | cons t ts ih =>
    intro k hk h i
    cases hk with
    | cons h1 h2 =>
      rw [List.map_cons, List.map_cons, List.sum_cons, visitEachA, List.length_cons, next_bind]
      exact Toll.bind (h t (by simp) _ h1) fun v =>
        (ih h2 (fun y hy => h y (by simp [hy])) (i + 1)).then fun vs => .pure _

theorem toll_visitUnwrap {env : Env} {W : Nat} {field : Ty → A Val} (ts : List Ty) :
    ∀ {k : Nat}, WeighTogether env ts k → (∀ t ∈ ts, Pays env W field t) → ∀ c,
    Toll W k 0 (visitUnwrapA (ts.map field) { count := c }) := by
  induction ts with
  | nil => intro k hk _ c; exact .pure _
  | cons t ts ih =>
    intro k hk h c
    cases hk with
    | cons h1 h2 =>
      rw [List.map_cons, visitUnwrapA]
      cases c with
      | zero =>
        rw [next_bind_none]
        exact .stop (by simp)
      | succ c =>
        rw [next_bind]
        exact (Toll.bind (h t (by simp) _ h1) fun v =>
          (ih h2 (fun y hy => h y (by simp [hy])) c).then fun vs => .pure _).weaken (Nat.le_refl _)
            (Nat.zero_le _)

theorem toll_visitVec {W k : Nat} {d : A Val} (h : Toll W k 4 d) (hk : k ≤ W) :
    ∀ c, Toll W k 0 (visitVecA d (c + 1) { count := c }) := by
  intro c
  induction c with
  | zero =>
    rw [visitVecA, next_bind_none]
    exact .pure _
  | succ c ih =>
    rw [visitVecA, next_bind]
    exact Toll.pay (σ := 0) h hk fun v => ih.then fun vs => .pure _

theorem A.bind_assoc {α β γ : Type} (m : A α) (f : α → A β) (g : β → A γ) :
    ((m >>= f) >>= g) = (m >>= fun a => f a >>= g) := by
  funext s
  simp only [A.bind_def]
  rcases m s with ⟨c, ⟨a, r⟩ | e | p | _⟩
  · dsimp only
    rcases hf : f a r with ⟨d, ⟨b, q⟩ | e | p | _⟩
    · dsimp only
      rw [Nat.add_assoc]
    all_goals rfl
  all_goals rfl

theorem toll_visitMap {W k l σ τ : Nat} {dk dv : A Val} (hk : Toll W k σ dk) (hv : Toll W l τ dv)
    (hs : 4 ≤ σ + τ) (hw : k + l ≤ W) :
    ∀ c es, Toll W (k + l) 0 (visitMapA dk dv (c + 1) { count := c } es) := by
  intro c
  induction c with
  | zero =>
    intro es
    rw [visitMapA, key_bind_none]
    exact .pure _
  | succ c ih =>
    intro es
    rw [visitMapA, key_bind]
    have e : (dk >>= fun a => dv >>= fun v => visitMapA dk dv (c + 1) { count := c } (mapInsert a v es))
        = ((dk >>= fun a => dv >>= fun v => Pure.pure (a, v)) >>= fun (p : Val × Val) =>
          visitMapA dk dv (c + 1) { count := c } (mapInsert p.1 p.2 es)) := by
      simp only [A.bind_assoc]
      congr 1
      funext a
      congr 1
      funext v
      funext s
      rw [A.bind_def]
      show _ = (0 + _, _)
      rw [Nat.zero_add]
    refine Eq.mpr (congrArg _ e) ?_
    refine Toll.pay (σ := 0) ?_ hw fun p => ih _
    exact ((Toll.bind hk fun a => hv.then fun v => .pure _).weaken (Nat.le_refl _) (by omega))

theorem toll_loop {W : Nat} (hW : 1 ≤ W) (size : Nat) : ∀ n c st, n ≤ c →
    Toll W 0 (if n = 0 then 0 else 8) (enumerate_u8_loopW size n { count := c } st) := by
  intro n
  induction n with
  | zero => intro c st _; exact .pure _
  | succ n ih =>
    intro c st hc
    obtain ⟨c, rfl⟩ : ∃ d, c = d + 1 := ⟨c - 1, by omega⟩
    rw [enumerate_u8_loopW, next_bind]
    have h := ih c
    refine Toll.pay (d := 1) (σ := 8) (τ := 0) (.word ?_) hW fun v => ?_
    · unfold deserialize_u32; exact Eats.first eats_u32 fun _ => .pure _
    · exact (Toll.count (h _ (by omega))).weaken (Nat.le_refl _) (Nat.zero_le _)

theorem toll_enumerate {W : Nat} (hW : 1 ≤ W) (size : Nat) :
    Toll W 0 (if size = 0 then 0 else 8) (enumerate_u8W { count := size }) := by
  refine (toll_loop hW size ((size + 3) / 4) size (List.replicate size 0, 0) (by omega)).weaken
    (Nat.le_refl _) ?_
  split <;> split <;> omega

/-- What the main lemma needs of a type. -/
def Load (env : Env) (W : Nat) (t : Ty) : Prop :=
  GroupsWithin env W t ∧ ElementsSized env t ∧ DiscriminantsSimple env t

theorem Load.part {env : Env} {W : Nat} {t u : Ty} (h : Load env W t) (hu : u ∈ t.parts env) :
    Load env W u :=
  ⟨fun x hx => h.1 x (.head hu hx), ⟨fun e he => h.2.1.1 e (.head hu he),
    fun k v hm => h.2.1.2 k v (.head hu hm)⟩, fun nm d vs im hr => h.2.2 nm d vs im (.head hu hr)⟩

theorem one_together {env : Env} {t : Ty} {k : Nat} (h : WeighTogether env [t] k) : Weighs env t k := by
  cases h with
  | cons h1 h2 => cases h2; exact h1

theorem toll_deDef {env : Env} {W n : Nat} {name : String} {d : Def} (he : env name = some d)
    (hl : Load env W (.named name))
    (ih : ∀ t ∈ d.types, Pays env W (deTyW env n) t) {k : Nat}
    (hk : WeighTogether env (Ty.always env (.named name)) k) :
    Toll W k (saved env (.named name)) (deDefA (deTyW env n) name d) := by
  have arm : ∀ (vars : List (String × Option (List Ty))) (vn : String) (i : Nat) (ts : List Ty),
      findVariant vn vars 0 = some (i, some ts) → (∃ m ∈ vars, m.2 = some ts) := by
    intro vars vn i ts h
    exact ⟨_, findVariant_mem h, rfl⟩
  have grp := hl.1 _ .refl
  simp only [Ty.always, he] at hk
  simp only [Ty.groups, he] at grp
  cases d with
  | unitStruct =>
    refine Toll.weaken (.pure _) (Nat.le_refl _) (saved_le_of (by simp [Ty.Simple, he]) ?_)
    intro h; cases h <;> simp_all
  | newtypeStruct t =>
    refine Toll.weaken ((ih t (by simp [Def.types]) _ (one_together hk)).then fun v => .pure _)
      (Nat.le_refl _) (saved_le_of (by simp [Ty.Simple, he]) ?_)
    intro h
    cases h <;> simp_all
    subst he; rename_i h _; exact saved_sized h
  | tupleStruct ts =>
    refine Toll.weaken ((toll_visitEach ts hk (fun t ht => ih t ht) 0).then fun v => .pure _)
      (Nat.le_refl _) (saved_le_of (by simp [Ty.Simple, he]) ?_)
    intro h
    cases h <;> simp_all
    subst he; rename_i h _; exact saved_sum h
  | struct fs =>
    have h1 := toll_visitEach (W := W) (field := deTyW env n)
      (exp := s!"struct {name} with {fs.length} elements") (fs.map fun f : String × Ty => f.2) hk ih 0
    rw [List.map_map (f := fun f : String × Ty => f.2) (g := deTyW env n), List.length_map] at h1
    refine Toll.weaken (Toll.then (c := k) (σ := ((fs.map (·.2)).map (saved env)).sum) ?_
      fun v => .pure _) (Nat.le_refl _) (saved_le_of (by simp [Ty.Simple, he]) ?_)
    · rw [List.length_map]; exact h1
    · intro h
      cases h <;> simp_all
      subst he; rename_i h _
      have := saved_sum h
      rw [List.map_map] at this
      exact this
  | enum vars =>
    dsimp only at hk grp
    refine Toll.weaken (c := 0) (σ := 8 + 0) ?_ (Nat.zero_le _) (saved_le _ _)
    refine Toll.pay (d := W) (.word ?_) (Nat.le_refl _) fun i => ?_
    · unfold Enum_variant_seed
      refine Eats.first eats_i32 fun v => ?_
      split
      · exact .fail _ (by simp) (by simp)
      · unfold variantIndex
        split
        · exact .pure _
        · exact .fail _ (by simp) (by simp)
    · have mem : ∀ vn sh, vars[i]? = some (vn, sh) → ∀ t ∈ sh.types, t ∈ (Def.enum vars).types := by
        intro vn sh h t ht
        exact List.mem_flatMap.mpr ⟨_, List.mem_of_getElem? h, ht⟩
      have wt : ∀ vn sh, vars[i]? = some (vn, sh) → ∃ k ≤ W, WeighTogether env sh.types k := by
        intro vn sh h
        exact grp _ (List.mem_map_of_mem (List.mem_of_getElem? h))
      rcases hv : vars[i]? with _ | ⟨vn, _ | t | ts | fs⟩
      · exact .stop (by simp)
      · exact .pure _
      · obtain ⟨j, hj, hw⟩ := wt _ _ hv
        exact ((ih t (mem _ _ hv t (by simp [Shape.types])) _ (one_together hw)).then
          fun v => .pure _).weaken hj (Nat.zero_le _)
      · obtain ⟨j, hj, hw⟩ := wt _ _ hv
        exact ((toll_visitEach ts hw (fun t ht => ih t (mem _ _ hv t ht)) 0).then
          fun v => .pure _).weaken hj (Nat.zero_le _)
      · obtain ⟨j, hj, hw⟩ := wt _ _ hv
        have h1 := toll_visitEach (W := W) (field := deTyW env n)
          (exp := s!"struct variant {name}::{vn} with {fs.length} elements") (fs.map fun f : String × Ty => f.2) hw
          (fun t (ht : t ∈ (Shape.struct fs).types) => ih t (mem _ _ hv t ht)) 0
        rw [List.map_map (f := fun f : String × Ty => f.2) (g := deTyW env n), List.length_map] at h1
        dsimp only
        rw [List.length_map]
        exact (Toll.then h1 fun v => .pure _).weaken hj (Nat.zero_le _)
  | indexer vars impl =>
    dsimp only at hk grp
    refine Toll.weaken (c := 0) (σ := 8 + 0) ?_ (Nat.zero_le _) (saved_le _ _)
    rw [deDefA, visitIndexerA, next_bind]
    refine Toll.pay (d := W) (.word ?_) (Nat.le_refl _) fun index => ?_
    · unfold deserialize_i32
      exact Eats.first eats_i32 fun _ => .pure _
    · dsimp only
      cases impl.name_by_index index with
      | ok vn =>
        dsimp only
        rcases hv : findVariant vn vars 0 with _ | ⟨i, _ | ts⟩
        · exact .stop (by simp)
        · exact .pure _
        · obtain ⟨m, hm, he⟩ := arm _ _ _ _ hv
          obtain ⟨j, hj, hw⟩ := grp ts (List.mem_map.mpr ⟨m, hm, by rw [he]; rfl⟩)
          refine ((toll_visitUnwrap ts hw (fun t ht => ih t ?_) 9).then fun vs => .pure _).weaken hj
            (Nat.le_refl _)
          exact List.mem_flatMap.mpr ⟨m, hm, by rw [he]; exact ht⟩
      | err e => exact .stop (by simp)
      | panic e => exact .stop (by simp)
      | depth => exact .stop (by simp)
  | union disc vars impl =>
    dsimp only at hk grp
    have hd := hl.2.2 _ _ _ _ .refl he
    refine Toll.weaken (c := k) (σ := 4 + 0) ?_ (Nat.le_refl _)
      (saved_le_of (by simp [Ty.Simple, he]) fun _ => Nat.le_refl _)
    rw [deDefA, visitUnionA, next_bind]
    have h1 := ih disc (by simp [Def.types]) _ (one_together hk)
    rw [saved_simple hd] at h1
    refine Toll.pay (d := W) (σ := 4) h1 (Nat.le_refl _) fun value => ?_
    dsimp only
    cases impl.name_by_value value with
    | ok vn =>
      dsimp only
      rcases hv : findVariant vn vars 0 with _ | ⟨i, _ | _ | ⟨t, ts⟩⟩
      · exact .stop (by simp)
      · exact .pure _
      · exact .pure _
      · obtain ⟨m, hm, he⟩ := arm _ _ _ _ hv
        obtain ⟨j, hj, hw⟩ := grp ts (List.mem_map.mpr ⟨m, hm, by rw [he]; rfl⟩)
        refine ((toll_visitUnwrap ts hw (fun u hu => ih u ?_) 9).then fun vs => .pure _).weaken hj
          (Nat.le_refl _)
        exact List.mem_cons_of_mem _
          (List.mem_flatMap.mpr ⟨m, hm, by rw [he]; exact List.mem_cons_of_mem _ hu⟩)
    | err e => exact .stop (by simp)
    | panic e => exact .stop (by simp)
    | depth => exact .stop (by simp)

theorem toll_deTy {env : Env} {W : Nat} (hW : 1 ≤ W) (n : Nat) (t : Ty) (h : Load env W t) :
    Pays env W (deTyW env n) t := by
  induction n generalizing t with
  | zero => intro k _; exact .stop (by simp)
  | succ n ih =>
    intro k hk
    cases hk with
    | @mk _ k hk =>
    have part : ∀ u ∈ t.parts env, Pays env W (deTyW env n) u := fun u hu => ih u (h.part hu)
    have grp := h.1 _ .refl
    cases t with
    | option t =>
      rw [deTyW]
      refine Toll.count ?_
      refine Toll.weaken (c := 0) (σ := 8 + 0) ?_ (Nat.zero_le _) (saved_le _ _)
      obtain ⟨j, hj, hw⟩ := grp [t] (by simp [Ty.groups])
      refine Toll.pay (.word eats_u32) hj fun v => ?_
      split
      · exact .pure _
      · exact ((part t (by simp [Ty.parts]) _ (one_together hw)).then fun v => .pure _).weaken
          (Nat.le_refl _) (Nat.zero_le _)
    | vec t =>
      rw [deTyW]
      refine Toll.count ?_
      refine Toll.weaken (c := 0) (σ := 8 + 0) ?_ (Nat.zero_le _) (saved_le _ _)
      obtain ⟨j, hj, hw⟩ := grp [t] (by simp [Ty.groups])
      refine Toll.pay (.word eats_u32) hj fun v => ?_
      have hs := saved_sized (h.2.1.1 t .refl)
      exact (toll_visitVec ((part t (by simp [Ty.parts]) _ (one_together hw)).weaken
        (Nat.le_refl _) hs) hj _).then fun v => .pure _
    | array len t =>
      rw [deTyW]
      refine Toll.count ?_
      have g := toll_visitEach (W := W) (field := deTyW env n) (exp := s!"an array of length {len}")
        (List.replicate len t) hk (fun u hu => part u (by
          rw [List.mem_replicate] at hu; simp [Ty.parts, hu.2])) 0
      rw [List.map_replicate, List.map_replicate, List.length_replicate] at g
      refine Toll.weaken (g.then fun vs => .pure _) (Nat.le_refl _) (saved_le_of (by simp [Ty.Simple]) ?_)
      intro hs
      cases hs with
      | array hs =>
        have := saved_sized hs
        rw [List.replicate_succ, List.sum_cons]; omega
    | tuple ts =>
      rw [deTyW]
      refine Toll.count ?_
      refine Toll.weaken ((toll_visitEach ts hk (fun t ht => part t ht) 0).then fun vs => .pure _)
        (Nat.le_refl _) (saved_le_of (by simp [Ty.Simple]) ?_)
      intro hs
      cases hs with
      | tuple hs => exact saved_sum hs
    | map a b =>
      rw [deTyW]
      refine Toll.count ?_
      refine Toll.weaken (c := 0) (σ := 8 + 0) ?_ (Nat.zero_le _) (saved_le _ _)
      obtain ⟨j, hj, hw⟩ := grp [a, b] (by simp [Ty.groups])
      cases hw with
      | cons h1 h2 =>
      refine Toll.pay (.word eats_u32) hj fun v => ?_
      have hs : 4 ≤ saved env a + saved env b := by
        rcases h.2.1.2 a b .refl with h | h
        · have := saved_sized h; omega
        · have := saved_sized h; omega
      exact (toll_visitMap (part a (by simp [Ty.parts]) _ h1)
        (part b (by simp [Ty.parts]) _ (one_together h2)) hs hj _ _).then fun v => .pure _
    | opaqueFixed len =>
      rw [deTyW]
      refine Toll.count ?_
      refine Toll.weaken (c := 0) (σ := if len = 0 then 0 else 8) ?_ (Nat.zero_le _)
        (saved_le_of (by simp [Ty.Simple]) ?_)
      · refine Toll.then ?_ fun v => .pure _
        unfold visitFixedW
        refine Toll.then (toll_enumerate hW len) fun v => ?_
        split
        · exact .pure _
        · exact .stop (by simp)
      · intro hs; cases hs; simp
    | opaqueVar =>
      rw [deTyW]
      refine Toll.count ?_
      refine Toll.weaken (c := 0) (σ := 8 + 0) ?_ (Nat.zero_le _) (saved_le _ _)
      refine Toll.pay (d := 0) (.word eats_u32) (Nat.zero_le _) fun v => ?_
      exact ((toll_enumerate hW v.toNat).weaken (Nat.le_refl _) (Nat.zero_le _)).then fun v => .pure _
    | named name =>
      rw [deTyW]
      refine Toll.count ?_
      cases he : env name with
      | none => exact .stop (by simp)
      | some d =>
        exact toll_deDef he h (fun t ht => part t (by simp [Ty.parts, he, ht])) hk
    | bool | i8 | i16 | i32 | i64 | u8 | u16 | u32 | u64 | f32 | f64 | char | string | bytes
    | signed32 =>
      refine Toll.count (m := A.lift _) ?_
      refine Toll.weaken (.word (sized_eats ?_ (n + 1))) (Nat.zero_le _) ?_
      · constructor
      · have := saved_le env
        exact Nat.le_trans (this _) (by omega)
    | unit =>
      refine Toll.count (m := A.lift _) ?_
      refine Toll.weaken (.lift ((Gen.pure _).eats)) (Nat.zero_le _) (saved_le_of ?_ ?_)
      · simp [Ty.Simple]
      · intro hs; cases hs

end Xdr
