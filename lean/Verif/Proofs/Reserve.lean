import Verif.Model.Reserve
import Verif.Proofs.Depth
import Verif.Proofs.Recursion
import Verif.Spec.Reaches
/-! # Lemmas: memory requested in advance -/

namespace Xdr

/-! ## The results are those of the decoder -/

/-- Forget the amounts. -/
def A.run {α : Type} (m : A α) : De α := fun s => (m s).2

theorem A.run_pure {α : Type} (a : α) : (Pure.pure a : A α).run = Pure.pure a := rfl

theorem A.run_lift {α : Type} (d : De α) : (A.lift d).run = d := rfl

theorem A.bind_def {α β : Type} (m : A α) (f : α → A β) (s : Bytes) : (m >>= f) s =
    match m s with
    | (c, .ok (a, s')) => (c + (f a s').1, (f a s').2)
    | (c, .err e) => (c, .err e)
    | (c, .panic p) => (c, .panic p)
    | (c, .depth) => (c, .depth) := rfl

theorem A.run_bind {α β : Type} (m : A α) (f : α → A β) :
    (m >>= f).run = (m.run >>= fun a => (f a).run) := by
  funext s
  rw [M.bind_run]
  unfold A.run
  rw [A.bind_def]
  rcases m s with ⟨c, _ | _ | _ | _⟩ <;> rfl

theorem A.run_reserve {α : Type} (k : Nat) (m : A α) :
    (A.reserve k >>= fun _ => m).run = m.run := by
  rw [A.run_bind]; rfl

theorem run_next {α : Type} (s : Seq) (m : A α) :
    (s.next_elementA m).run = s.next_element m.run := by
  unfold Seq.next_elementA Seq.next_element
  split
  · rfl
  · rw [A.run_bind]; rfl

theorem run_key {α : Type} (s : MapAcc) (m : A α) :
    (s.next_keyA m).run = s.next_key m.run := by
  unfold MapAcc.next_keyA MapAcc.next_key
  split
  · rfl
  · rw [A.run_bind]; rfl

theorem run_visitEach (exp : String) (ds : List (A Val)) : ∀ (i : Nat) (seq : Seq),
    (visitEachA exp ds i seq).run = visitEach exp (ds.map A.run) i seq := by
  induction ds with
  | nil => intro i seq; rfl
  | cons d ds ih =>
    intro i seq
    rw [List.map_cons, visitEachA, visitEach, A.run_bind, run_next]
    congr 1
    funext ⟨o, seq'⟩
    cases o with
    | none => rfl
    | some v =>
      show A.run (_ >>= _) = _
      rw [A.run_bind, ih]; rfl

theorem run_visitUnwrap (ds : List (A Val)) : ∀ (seq : Seq),
    (visitUnwrapA ds seq).run = visitUnwrap (ds.map A.run) seq := by
  induction ds with
  | nil => intro seq; rfl
  | cons d ds ih =>
    intro seq
    rw [List.map_cons, visitUnwrapA, visitUnwrap, A.run_bind, run_next]
    congr 1
    funext ⟨o, seq'⟩
    cases o with
    | none => rfl
    | some v =>
      show A.run (_ >>= _) = _
      rw [A.run_bind, ih]; rfl

theorem run_visitVec (d : A Val) : ∀ (n : Nat) (seq : Seq),
    (visitVecA d n seq).run = visitVec d.run n seq := by
  intro n
  induction n with
  | zero => intro seq; rfl
  | succ n ih =>
    intro seq
    rw [visitVecA, visitVec, A.run_bind, run_next]
    congr 1
    funext ⟨o, seq'⟩
    cases o with
    | none => rfl
    | some v =>
      show A.run (_ >>= _) = _
      rw [A.run_bind, ih]; rfl

theorem run_visitMap (dk dv : A Val) : ∀ (n : Nat) (acc : MapAcc) (es : List (Val × Val)),
    (visitMapA dk dv n acc es).run = visitMap dk.run dv.run n acc es := by
  intro n
  induction n with
  | zero => intro acc es; rfl
  | succ n ih =>
    intro acc es
    rw [visitMapA, visitMap, A.run_bind, run_key]
    congr 1
    funext ⟨o, seq'⟩
    cases o with
    | none => rfl
    | some v =>
      show A.run (_ >>= _) = _
      rw [A.run_bind]
      unfold MapAcc.next_value
      congr 1
      funext w
      exact ih _ _

theorem run_enumerate (seq : Seq) : (enumerate_u8A seq).run = enumerate_u8 seq := by
  unfold enumerate_u8A enumerate_u8 Seq.size_hint
  exact A.run_reserve _ _

theorem run_fixed (n : Nat) (seq : Seq) : (visitFixedA n seq).run = visitFixed n seq := by
  rw [visitFixedA, visitFixed, A.run_bind, run_enumerate]
  congr 1
  funext v
  show A.run (ite _ _ _) = ite _ _ _
  split <;> rfl

theorem map_run (field : Ty → A Val) (ts : List Ty) :
    (ts.map field).map A.run = ts.map fun t => (field t).run := by
  rw [List.map_map]; rfl

theorem run_indexer (field : Ty → A Val) (vars : List (String × Option (List Ty)))
    (impl : IndexerImpl) (seq : Seq) :
    (visitIndexerA field vars impl seq).run =
      visitIndexer (fun t => (field t).run) vars impl seq := by
  rw [visitIndexerA, visitIndexer, A.run_bind, run_next]
  congr 1
  funext ⟨o, seq'⟩
  cases o with
  | none => rfl
  | some index =>
    dsimp only
    cases impl.name_by_index index with
    | ok name =>
      dsimp only
      rcases findVariant name vars 0 with _ | ⟨i, _ | ts⟩
      · rfl
      · rfl
      · dsimp only
        rw [A.run_bind, run_visitUnwrap, map_run]; rfl
    | err e => rfl
    | panic p => rfl
    | depth => rfl

theorem run_union (field : Ty → A Val) (disc : Ty) (vars : List (String × Option (List Ty)))
    (impl : UnionImpl) (seq : Seq) :
    (visitUnionA field disc vars impl seq).run =
      visitUnion (fun t => (field t).run) disc vars impl seq := by
  rw [visitUnionA, visitUnion, A.run_bind, run_next]
  congr 1
  funext ⟨o, seq'⟩
  cases o with
  | none => rfl
  | some value =>
    dsimp only
    cases impl.name_by_value value with
    | ok name =>
      dsimp only
      rcases findVariant name vars 0 with _ | ⟨i, _ | _ | ⟨t, ts⟩⟩
      · rfl
      · rfl
      · rfl
      · dsimp only
        rw [A.run_bind, run_visitUnwrap, map_run]; rfl
    | err e => rfl
    | panic p => rfl
    | depth => rfl

theorem run_def (field : Ty → A Val) (name : String) (d : Def) :
    (deDefA field name d).run = deDef (fun t => (field t).run) name d := by
  cases d with
  | unitStruct => rfl
  | newtypeStruct t =>
    rw [deDefA, deDef, A.run_bind]; rfl
  | tupleStruct ts =>
    rw [deDefA, deDef, A.run_bind, run_visitEach, map_run]; rfl
  | struct fs =>
    rw [deDefA, deDef, A.run_bind, run_visitEach, List.map_map]; rfl
  | enum vars =>
    rw [deDefA, deDef, A.run_bind]
    unfold deserialize_enum
    congr 1
    funext i
    rcases vars[i]? with _ | ⟨vn, _ | t | ts | fs⟩
    · rfl
    · rfl
    · dsimp only
      rw [A.run_bind]; rfl
    · dsimp only
      rw [A.run_bind, run_visitEach, map_run]; rfl
    · dsimp only
      rw [A.run_bind, run_visitEach, List.map_map]; rfl
  | indexer vars impl => exact run_indexer _ _ _ _
  | union disc vars impl => exact run_union _ _ _ _ _

theorem run_deTy (env : Env) (size : Ty → Nat) (n : Nat) (t : Ty) :
    (deTyA env size n t).run = deTy env n t := by
  induction n generalizing t with
  | zero => rfl
  | succ n ih =>
    have ih' : (fun t => (deTyA env size n t).run) = deTy env n := funext ih
    cases t with
    | option t =>
      rw [deTyA, deTy, A.run_bind]
      unfold deserialize_option
      congr 1
      funext v
      show A.run (ite _ _ _) = ite _ _ _
      split
      · rfl
      · rw [A.run_bind, ih]; rfl
    | vec t =>
      rw [deTyA, deTy, A.run_bind]
      unfold deserialize_seq
      rw [M.bind_assoc']
      congr 1
      funext v
      dsimp only
      rw [A.run_reserve, A.run_bind, run_visitVec, ih]; rfl
    | array len t =>
      rw [deTyA, deTy, A.run_bind, run_visitEach, List.map_replicate, ih]; rfl
    | tuple ts =>
      rw [deTyA, deTy, A.run_bind, run_visitEach, map_run, ih']; rfl
    | map k v =>
      rw [deTyA, deTy, A.run_bind]
      unfold deserialize_map
      rw [M.bind_assoc']
      congr 1
      funext w
      dsimp only
      rw [A.run_reserve, A.run_bind, run_visitMap, ih, ih]; rfl
    | opaqueFixed len =>
      rw [deTyA, deTy, A.run_bind, run_fixed]; rfl
    | opaqueVar =>
      rw [deTyA, deTy, A.run_bind]
      unfold variable_deserialize deserialize_seq
      rw [M.bind_assoc']
      congr 1
      funext w
      dsimp only
      rw [A.run_bind, run_enumerate]; rfl
    | named name =>
      rw [deTyA, deTy]
      cases env name with
      | none => rfl
      | some d =>
        dsimp only
        rw [run_def, ih']
    | bool | i8 | i16 | i32 | i64 | u8 | u16 | u32 | u64 | f32 | f64 | char | string | bytes | unit
    | signed32 => rfl

/-! ## The amounts -/

/-- The computation takes at least `w` bytes and requests at most `S` bytes for every four bytes it
takes beyond these, and one for one; when it fails, in addition 1 MiB for each of `n` levels, but not
more than there are words, and `F`. -/
def Bill (S : Nat) (F : Option Nat) (n w : Nat) {α : Type} (s : Bytes) : Nat × Res (α × Bytes) → Prop
  | (c, .ok (_, r)) => r.length + w ≤ s.length ∧
      4 * c + S * w + (S + 4) * r.length ≤ (S + 4) * s.length
  | (c, _) => ∀ f ∈ F, 4 * c ≤ (S + 4) * s.length + 4 * (2 ^ 20 * min n (s.length / 4)) + 4 * f

/-- So on every input. -/
def Cost (S : Nat) (F : Option Nat) (n w : Nat) {α : Type} (m : A α) : Prop := ∀ s, Bill S F n w s (m s)

theorem Cost.lift {S : Nat} {F : Option Nat} {n w : Nat} {α : Type} {d : De α} (h : Eats w d) : Cost S F n w (A.lift d) := by
  intro s
  show Bill S F n w s (0, d s)
  cases hd : d s with
  | ok x =>
    obtain ⟨a, r⟩ := x
    have h1 := h _ _ _ hd
    have h2 := Nat.mul_le_mul_left (S + 4) h1
    rw [Nat.mul_add, Nat.add_mul S 4 w] at h2
    exact ⟨h1, by omega⟩
  | err e => simp only [Bill]; intro f hf; omega
  | panic e => simp only [Bill]; intro f hf; omega
  | depth => simp only [Bill]; intro f hf; omega

theorem Cost.pure {S : Nat} {F : Option Nat} {n : Nat} {α : Type} (a : α) : Cost S F n 0 (Pure.pure a : A α) := by
  intro s
  exact ⟨Nat.le_refl _, by omega⟩

theorem Cost.stop {S : Nat} {F : Option Nat} {n w : Nat} {α : Type} {d : De α} (h : ∀ s x, d s ≠ .ok x) :
    Cost S F n w (A.lift d) := Cost.lift fun _ _ _ hd => absurd hd (h _ _)

theorem Cost.bind {S : Nat} {F : Option Nat} {n j k : Nat} {α β : Type} {m : A α} {f : α → A β} (hm : Cost S F n j m)
    (hf : ∀ a, Cost S F n k (f a)) : Cost S F n (j + k) (m >>= f) := by
  intro s
  have h := hm s
  rw [A.bind_def]
  rcases hx : m s with ⟨c, ⟨a, r⟩ | e | p | _⟩ <;> rw [hx] at h <;> simp only [Bill] at h ⊢
  · obtain ⟨h1, h2⟩ := h
    have g := hf a r
    have hr : 2 ^ 20 * min n (r.length / 4) ≤ 2 ^ 20 * min n (s.length / 4) :=
      Nat.mul_le_mul_left _ (by omega)
    rcases hy : f a r with ⟨c', ⟨b, q⟩ | e | p | _⟩ <;> rw [hy] at g <;> simp only [Bill] at g ⊢
    · refine ⟨by omega, ?_⟩
      rw [Nat.mul_add S]
      omega
    all_goals
      intro f hf
      have := g f hf
      omega
  all_goals exact h

theorem Cost.weaken {S : Nat} {F : Option Nat} {n j k : Nat} {α : Type} {m : A α} (h : Cost S F n j m) (hk : k ≤ j) :
    Cost S F n k m := by
  intro s
  have h := h s
  have := Nat.mul_le_mul_left S hk
  rcases hx : m s with ⟨c, ⟨a, r⟩ | e | p | _⟩ <;> rw [hx] at h <;> simp only [Bill] at h ⊢
  · omega
  all_goals exact h

theorem Cost.deeper {S : Nat} {F : Option Nat} {n w : Nat} {α : Type} {m : A α} (h : Cost S F n w m) :
    Cost S F (n + 1) w m := by
  intro s
  have h := h s
  have hr : 2 ^ 20 * min n (s.length / 4) ≤ 2 ^ 20 * min (n + 1) (s.length / 4) :=
      Nat.mul_le_mul_left _ (by omega)
  rcases hx : m s with ⟨c, ⟨a, r⟩ | e | p | _⟩ <;> rw [hx] at h <;> simp only [Bill] at h ⊢
  · exact h
  all_goals
    intro f hf
    have := h f hf
    omega

theorem Cost.then {S : Nat} {F : Option Nat} {n w : Nat} {α β : Type} {m : A α} {f : α → A β} (hm : Cost S F n w m)
    (hf : ∀ a, Cost S F n 0 (f a)) : Cost S F n w (m >>= f) := Cost.bind hm hf

theorem next_bind {α β : Type} (m : A α) (c : Nat) (k : Option α × Seq → A β) :
    (Seq.next_elementA { count := c + 1 } m >>= k) = (m >>= fun v => k (some v, { count := c })) := by
  funext s
  unfold Seq.next_elementA
  rw [if_neg (by simp), A.bind_def, A.bind_def, A.bind_def]
  rcases m s with ⟨d, ⟨a, r⟩ | e | p | _⟩
  · show ((d + 0) + _, _) = _
    rw [Nat.add_zero]; rfl
  all_goals rfl

theorem next_bind_none {α β : Type} (m : A α) (k : Option α × Seq → A β) :
    (Seq.next_elementA { count := 0 } m >>= k) = k (none, { count := 0 }) := by
  funext s
  unfold Seq.next_elementA
  rw [if_pos rfl, A.bind_def]
  show ((0 + _, _) : Nat × _) = _
  rw [Nat.zero_add]

theorem key_bind {α β : Type} (m : A α) (c : Nat) (k : Option α × MapAcc → A β) :
    (MapAcc.next_keyA { count := c + 1 } m >>= k) = (m >>= fun v => k (some v, { count := c })) := by
  funext s
  unfold MapAcc.next_keyA
  rw [if_neg (by simp), A.bind_def, A.bind_def, A.bind_def]
  rcases m s with ⟨d, ⟨a, r⟩ | e | p | _⟩
  · show ((d + 0) + _, _) = _
    rw [Nat.add_zero]; rfl
  all_goals rfl

theorem key_bind_none {α β : Type} (m : A α) (k : Option α × MapAcc → A β) :
    (MapAcc.next_keyA { count := 0 } m >>= k) = k (none, { count := 0 }) := by
  funext s
  unfold MapAcc.next_keyA
  rw [if_pos rfl, A.bind_def]
  show ((0 + _, _) : Nat × _) = _
  rw [Nat.zero_add]

theorem cost_visitEach {S : Nat} {F : Option Nat} {n : Nat} {exp : String} {α : Type} {f : α → A Val} {w : α → Nat}
    (xs : List α) (h : ∀ x ∈ xs, Cost S F n (w x) (f x)) : ∀ i,
    Cost S F n (xs.map w).sum (visitEachA exp (xs.map f) i { count := xs.length }) := by
  induction xs with
  | nil => intro i; exact .pure _
  | cons x xs ih =>
    intro i
    rw [List.map_cons, List.map_cons, List.sum_cons, visitEachA, List.length_cons, next_bind]
    exact Cost.bind (h x (by simp)) fun v =>
      (ih (fun y hy => h y (by simp [hy])) (i + 1)).then fun vs => .pure _

theorem cost_visitUnwrap {S : Nat} {F : Option Nat} {n : Nat} (ds : List (A Val)) (h : ∀ d ∈ ds, Cost S F n 0 d) :
    ∀ c, Cost S F n 0 (visitUnwrapA ds { count := c }) := by
  induction ds with
  | nil => intro c; exact .pure _
  | cons d ds ih =>
    intro c
    rw [visitUnwrapA]
    cases c with
    | zero =>
      rw [next_bind_none]
      exact .stop (by simp)
    | succ c =>
      rw [next_bind]
      exact (h d (by simp)).then fun v => (ih (fun e he => h e (by simp [he])) c).then fun vs => .pure _

theorem cost_visitVec {S : Nat} {F : Option Nat} {n w : Nat} {d : A Val} (h : Cost S F n w d) :
    ∀ c, Cost S F n (w * c) (visitVecA d (c + 1) { count := c }) := by
  intro c
  induction c with
  | zero =>
    rw [visitVecA, next_bind_none]
    exact .pure _
  | succ c ih =>
    rw [visitVecA, next_bind, Nat.mul_succ, Nat.add_comm]
    exact h.bind fun v => ih.then fun vs => .pure _

theorem cost_visitMap {S : Nat} {F : Option Nat} {n : Nat} {dk dv : A Val} (hk : Cost S F n 0 dk) (hv : Cost S F n 0 dv) :
    ∀ c es, Cost S F n 0 (visitMapA dk dv (c + 1) { count := c } es) := by
  intro c
  induction c with
  | zero =>
    intro es
    rw [visitMapA, key_bind_none]
    exact .pure _
  | succ c ih =>
    intro es
    rw [visitMapA, key_bind]
    exact hk.then fun k => hv.then fun v => ih _

theorem enumerate_loop_eats (size : Nat) : ∀ k c st, k ≤ c →
    Eats (4 * k) (enumerate_u8_loop size k { count := c } st) := by
  intro k
  induction k with
  | zero => intro c st _; exact (Gen.pure _).eats
  | succ k ih =>
    intro c st hk
    obtain ⟨c, rfl⟩ : ∃ d, c = d + 1 := ⟨c - 1, by omega⟩
    rw [enumerate_u8_loop, Seq.next_succ, Nat.mul_succ, Nat.add_comm, M.bind_assoc']
    refine Eats.bind (by unfold deserialize_u32; exact Eats.first eats_u32 fun _ => .pure _) fun v => ?_
    exact ih c _ (by omega)

theorem Cost.opaque {S : Nat} {F : Option Nat} {n w size : Nat} (hF : ∀ f ∈ F, size ≤ f) (hw : w ≤ 4 * ((size + 3) / 4)) :
    Cost S F n w (enumerate_u8A { count := size }) := by
  intro s
  have he := enumerate_loop_eats size ((size + 3) / 4) size (List.replicate size 0, 0) (by omega) s
  have e : enumerate_u8A { count := size } s = (size, enumerate_u8_loop size ((size + 3) / 4)
      { count := size } (List.replicate size 0, 0) s) := rfl
  rw [e]
  cases hx : enumerate_u8_loop size ((size + 3) / 4) { count := size } (List.replicate size 0, 0) s with
  | ok x =>
    obtain ⟨a, r⟩ := x
    have h1 := he _ _ hx
    have h2 := Nat.mul_le_mul_left (S + 4) h1
    have h3 := Nat.mul_le_mul_left S hw
    rw [Nat.mul_add, Nat.add_mul S 4 (4 * _)] at h2
    exact ⟨by omega, by omega⟩
  | err e => simp only [Bill]; intro f hf; have := hF f hf; omega
  | panic e => simp only [Bill]; intro f hf; have := hF f hf; omega
  | depth => simp only [Bill]; intro f hf; have := hF f hf; omega

theorem cautious_le_count (size count : Nat) : cautious size (some count) ≤ count * size := by
  unfold cautious
  split
  · omega
  · exact Nat.mul_le_mul_right _ (Nat.min_le_left _ _)

theorem cautious_le (size : Nat) (hint : Option Nat) : cautious size hint ≤ 2 ^ 20 := by
  unfold cautious
  split
  · omega
  · exact Nat.le_trans (Nat.mul_le_mul_right _ (Nat.min_le_right _ _)) (Nat.div_mul_le_self _ _)

theorem cautious_none (size : Nat) : cautious size none = 0 := by
  unfold cautious
  split <;> simp

theorem Cost.vec {S : Nat} {F : Option Nat} {n w size : Nat} {d : A Val} (hd : Cost S F n w d)
    (hs : size = 0 ∨ size ≤ S ∧ w = 4) :
    Cost S F (n + 1) 4 (do
      let count := (← A.lift read_u32).toNat
      A.reserve (cautious size (some count))
      let vs ← visitVecA d (count + 1) { count := count }
      Pure.pure (Val.seq vs)) := by
  intro s
  rw [A.bind_def]
  have e : A.lift read_u32 s = (0, read_u32 s) := rfl
  rw [e]
  cases hx : read_u32 s with
  | err e => simp only [Bill]; intro f hf; omega
  | panic e => simp only [Bill]; intro f hf; omega
  | depth => simp only [Bill]; intro f hf; omega
  | ok x =>
    obtain ⟨v, r⟩ := x
    have h1 := eats_u32 _ _ _ hx
    dsimp only
    rw [A.bind_def]
    show Bill S F (n + 1) 4 s (0 + (cautious size (some v.toNat) +
      ((visitVecA d (v.toNat + 1) { count := v.toNat } >>= fun vs => Pure.pure (Val.seq vs)) r).1),
      ((visitVecA d (v.toNat + 1) { count := v.toNat } >>= fun vs => Pure.pure (Val.seq vs)) r).2)
    have g := ((cost_visitVec hd v.toNat).then fun vs =>
      Cost.pure (S := S) (F := F) (n := n) (Val.seq vs)) r
    generalize hm : (visitVecA d (v.toNat + 1) { count := v.toNat } >>= fun vs =>
      Pure.pure (Val.seq vs)) r = m at g ⊢
    have c1 := cautious_le_count size v.toNat
    have c2 := cautious_le size (some v.toNat)
    generalize cautious size (some v.toNat) = ρ at c1 c2 ⊢
    have c3 : 4 * ρ ≤ S * (w * v.toNat) := by
      rcases hs with rfl | ⟨h, rfl⟩
      · rw [Nat.mul_zero] at c1
        omega
      · have : v.toNat * size ≤ v.toNat * S := Nat.mul_le_mul_left _ h
        rw [Nat.mul_left_comm, Nat.mul_comm S]
        omega
    have hlen : (S + 4) * (r.length + 4) ≤ (S + 4) * s.length := Nat.mul_le_mul_left _ h1
    rw [Nat.mul_add, Nat.add_mul S 4 4] at hlen
    rcases m with ⟨c, ⟨a, q⟩ | e | p | _⟩ <;> simp only [Bill] at g ⊢
    · exact ⟨by omega, by omega⟩
    all_goals
      have hr : 2 ^ 20 * (min n (r.length / 4) + 1) ≤ 2 ^ 20 * min (n + 1) (s.length / 4) :=
        Nat.mul_le_mul_left _ (by omega)
      intro f hf
      have := g f hf
      omega

open Classical in
/-- The bytes a value of the type takes at least. -/
noncomputable def wire (env : Env) (t : Ty) : Nat := if Sized env t then 4 else 0

theorem wire_le (env : Env) (t : Ty) : wire env t ≤ 4 := by
  unfold wire; split <;> omega

theorem wire_eq {env : Env} {t : Ty} (h : Sized env t) : wire env t = 4 := if_pos h

theorem wire_zero {env : Env} {t : Ty} (h : ¬ Sized env t) : wire env t = 0 := if_neg h

theorem wire_sum {env : Env} {ts : List Ty} (h : SizedSome env ts) :
    4 ≤ (ts.map (wire env)).sum := by
  induction ts with
  | nil => cases h
  | cons t ts ih =>
    rw [List.map_cons, List.sum_cons]
    cases h with
    | head h => rw [wire_eq h]; omega
    | tail h => have := ih h; omega

theorem wire_le_of {env : Env} {t : Ty} {k : Nat} (h : Sized env t → 4 ≤ k) : wire env t ≤ k := by
  by_cases ht : Sized env t
  · rw [wire_eq ht]; exact h ht
  · rw [wire_zero ht]; omega

/-- What the main lemma needs of a type. -/
def Budget (env : Env) (size : Ty → Nat) (S : Nat) (F : Option Nat) (t : Ty) : Prop :=
  ListsWithin env size S t ∧ ∀ f ∈ F,
    (∀ len, Reaches env t (.opaqueFixed len) → len ≤ f) ∧ (Reaches env t .opaqueVar → 2 ^ 32 - 1 ≤ f)

theorem Budget.part {env : Env} {size : Ty → Nat} {S : Nat} {F : Option Nat} {t u : Ty}
    (h : Budget env size S F t) (hu : u ∈ t.parts env) : Budget env size S F u :=
  ⟨fun e he => h.1 e (.head hu he), fun f hf => ⟨fun l hl => (h.2 f hf).1 l (.head hu hl),
    fun hv => (h.2 f hf).2 (.head hu hv)⟩⟩

theorem cost_deDef {env : Env} {size : Ty → Nat} {S : Nat} {F : Option Nat} {n : Nat} {name : String} {d : Def}
    (he : env name = some d)
    (ih : ∀ t ∈ d.types, Cost S F n (wire env t) (deTyA env size n t)) :
    Cost S F n (wire env (.named name)) (deDefA (deTyA env size n) name d) := by
  have ih0 : ∀ t ∈ d.types, Cost S F n 0 (deTyA env size n t) :=
    fun t ht => (ih t ht).weaken (Nat.zero_le _)
  have unw : ∀ (ts : List Ty) (c : Nat), (∀ t ∈ ts, t ∈ d.types) →
      Cost S F n 0 (visitUnwrapA (ts.map (deTyA env size n)) { count := c }) := by
    intro ts c hts
    refine cost_visitUnwrap _ ?_ c
    intro a ha
    obtain ⟨t, ht, rfl⟩ := List.mem_map.mp ha
    exact ih0 t (hts t ht)
  have arm : ∀ (vars : List (String × Option (List Ty))) (vn : String) (i : Nat) (ts : List Ty),
      findVariant vn vars 0 = some (i, some ts) → (∃ m ∈ vars, m.2 = some ts) := by
    intro vars vn i ts h
    exact ⟨_, findVariant_mem h, rfl⟩
  cases d with
  | unitStruct =>
    refine Cost.weaken (.pure _) (wire_le_of ?_)
    intro h; cases h <;> simp_all
  | newtypeStruct t =>
    refine Cost.weaken ((ih t (by simp [Def.types])).then fun v => .pure _) (wire_le_of ?_)
    intro h
    cases h <;> simp_all
    subst he; rename_i h _; exact Nat.le_of_eq (wire_eq h).symm
  | tupleStruct ts =>
    refine Cost.weaken ((cost_visitEach (w := wire env) ts (fun t ht => ih t ht) 0).then
      fun v => .pure _) (wire_le_of ?_)
    intro h
    cases h <;> simp_all
    subst he; rename_i h _; exact wire_sum h
  | struct fs =>
    refine Cost.weaken (.then ?_ fun v => .pure _) (Nat.le_refl _)
    have h1 := cost_visitEach (S := S) (F := F) (n := n)
      (exp := s!"struct {name} with {fs.length} elements")
      (w := fun f : String × Ty => wire env f.2) (f := fun f => deTyA env size n f.2)
      fs (fun f hf => ih f.2 (List.mem_map_of_mem hf)) 0
    rw [List.length_map]
    refine h1.weaken (wire_le_of ?_)
    intro h
    cases h <;> simp_all
    subst he; rename_i h _
    have := wire_sum h
    rw [List.map_map] at this
    exact this
  | enum vars =>
    refine Cost.weaken (j := 4 + 0) (Cost.bind (.lift ?_) fun i => ?_) (wire_le _ _)
    · unfold Enum_variant_seed
      refine Eats.first eats_i32 fun v => ?_
      split
      · exact .fail _ (by simp) (by simp)
      · unfold variantIndex
        split
        · exact .pure _
        · exact .fail _ (by simp) (by simp)
    · have mem : ∀ vn sh, vars[i]? = some (vn, sh) → ∀ t ∈ sh.types, t ∈ (Def.enum vars).types := by
        intro vn sh h t ht
        exact List.mem_flatMap.mpr ⟨_, List.mem_of_getElem? h, ht⟩
      rcases hv : vars[i]? with _ | ⟨vn, _ | t | ts | fs⟩
      · exact .stop (by simp)
      · exact .pure _
      · exact (ih0 t (mem _ _ hv t (by simp [Shape.types]))).then fun v => .pure _
      · exact (Cost.weaken (cost_visitEach (w := fun _ => 0) ts
          (fun t ht => ih0 t (mem _ _ hv t ht)) 0) (Nat.zero_le _)).then fun v => .pure _
      · dsimp only
        rw [List.length_map]
        exact (Cost.weaken (cost_visitEach (w := fun _ => 0) (f := fun f => deTyA env size n f.2) fs
          (fun f hf => ih0 f.2 (mem _ _ hv f.2 (List.mem_map_of_mem hf))) 0)
          (Nat.zero_le _)).then fun v => .pure _
  | indexer vars impl =>
    refine Cost.weaken (j := 4 + 0) ?_ (wire_le _ _)
    rw [deDefA, visitIndexerA, next_bind]
    refine Cost.bind (.lift ?_) fun index => ?_
    · unfold deserialize_i32
      exact Eats.first eats_i32 fun _ => .pure _
    · dsimp only
      cases impl.name_by_index index with
      | ok vn =>
        dsimp only
        rcases hv : findVariant vn vars 0 with _ | ⟨i, _ | ts⟩
        · exact .stop (by simp)
        · exact .pure _
        · refine (unw ts 9 fun t ht => ?_).then fun vs => .pure _
          obtain ⟨m, hm, he⟩ := arm _ _ _ _ hv
          exact List.mem_flatMap.mpr ⟨m, hm, by rw [he]; exact ht⟩
      | err e => exact .stop (by simp)
      | panic e => exact .stop (by simp)
      | depth => exact .stop (by simp)
  | union disc vars impl =>
    refine Cost.weaken (j := wire env disc + 0) ?_ (wire_le_of ?_)
    · rw [deDefA, visitUnionA, next_bind]
      refine Cost.bind (ih disc (by simp [Def.types])) fun value => ?_
      dsimp only
      cases impl.name_by_value value with
      | ok vn =>
        dsimp only
        rcases hv : findVariant vn vars 0 with _ | ⟨i, _ | _ | ⟨t, ts⟩⟩
        · exact .stop (by simp)
        · exact .pure _
        · exact .pure _
        · refine (unw ts 9 fun u hu => ?_).then fun vs => .pure _
          obtain ⟨m, hm, he⟩ := arm _ _ _ _ hv
          exact List.mem_cons_of_mem _
            (List.mem_flatMap.mpr ⟨m, hm, by rw [he]; exact List.mem_cons_of_mem _ hu⟩)
      | err e => exact .stop (by simp)
      | panic e => exact .stop (by simp)
      | depth => exact .stop (by simp)
    · intro h
      cases h <;> simp_all
      rename_i h _; exact Nat.le_of_eq (wire_eq h).symm

theorem cost_deTy {env : Env} {size : Ty → Nat} {S : Nat} {F : Option Nat} (n : Nat) (t : Ty)
    (h : Budget env size S F t) : Cost S F n (wire env t) (deTyA env size n t) := by
  induction n generalizing t with
  | zero => exact .stop (by simp)
  | succ n ih =>
    have ih0 : ∀ u ∈ t.parts env, Cost S F n 0 (deTyA env size n u) :=
      fun u hu => (ih u (h.part hu)).weaken (Nat.zero_le _)
    cases t with
    | option t =>
      refine Cost.weaken (j := 4 + 0) ?_ (wire_le _ _)
      rw [deTyA]
      refine Cost.bind (.lift eats_u32) fun v => ?_
      split
      · exact .pure _
      · exact ((ih0 t (by simp [Ty.parts])).deeper).then fun v => .pure _
    | vec t =>
      refine Cost.weaken ?_ (wire_le _ _)
      obtain ⟨h1, h2⟩ := h.1 t .refl
      refine Cost.vec (ih t (h.part (by simp [Ty.parts]))) ?_
      rcases h2 with h2 | h2
      · exact .inl h2
      · exact .inr ⟨h1, wire_eq h2⟩
    | array len t =>
      have g := cost_visitEach (S := S) (F := F) (n := n) (exp := s!"an array of length {len}")
        (w := fun _ => wire env t) (f := fun _ => deTyA env size n t)
        (List.replicate len ()) (fun _ _ => ih t (h.part (by simp [Ty.parts]))) 0
      rw [List.map_replicate, List.map_replicate, List.length_replicate] at g
      refine Cost.weaken (g.then fun vs => .pure _).deeper (wire_le_of ?_)
      intro hs
      cases hs with
      | array hs => rw [wire_eq hs, List.replicate_succ, List.sum_cons]; omega
    | tuple ts =>
      refine Cost.weaken ((cost_visitEach (w := wire env) ts (fun t ht => ih t (h.part ht)) 0).then
        fun vs => .pure _).deeper (wire_le_of ?_)
      intro hs
      cases hs with
      | tuple hs => exact wire_sum hs
    | map k v =>
      refine Cost.weaken (j := 4 + 0) ?_ (wire_le _ _)
      rw [deTyA]
      refine Cost.bind (.lift eats_u32) fun c => ?_
      dsimp only [MapAcc.size_hint]
      rw [cautious_none]
      exact Cost.then (m := A.reserve 0) (Cost.pure ()) fun _ =>
        ((cost_visitMap (ih0 k (by simp [Ty.parts])) (ih0 v (by simp [Ty.parts])) _ _).deeper).then
          fun es => .pure _
    | opaqueFixed len =>
      refine Cost.then ?_ fun v => .pure _
      unfold visitFixedA
      refine Cost.then (.opaque (fun f hf => (h.2 f hf).1 len .refl) (wire_le_of ?_)) fun v => ?_
      · intro hs; cases hs; omega
      · split
        · exact .pure _
        · exact .stop (by simp)
    | opaqueVar =>
      refine Cost.weaken (j := 4 + 0) ?_ (wire_le _ _)
      rw [deTyA]
      refine Cost.bind (.lift eats_u32) fun c => ?_
      have := c.toNat_lt
      exact (Cost.opaque (fun f hf => by have := (h.2 f hf).2 .refl; omega) (Nat.zero_le _)).then fun v => .pure _
    | named name =>
      rw [deTyA]
      cases he : env name with
      | none => exact .stop (by simp)
      | some d =>
        exact (cost_deDef he fun t ht => ih t (h.part (by simp [Ty.parts, he, ht]))).deeper
    | bool | i8 | i16 | i32 | i64 | u8 | u16 | u32 | u64 | f32 | f64 | char | string | bytes
    | signed32 =>
      refine Cost.weaken (.lift (sized_eats ?_ (n + 1))) (wire_le _ _)
      constructor
    | unit =>
      refine Cost.weaken (.lift ((Gen.pure _).eats)) (wire_le_of ?_)
      intro hs; cases hs

end Xdr
