import Verif.Proofs.Decoded
import Verif.Props.Decoding
import Verif.Props.Maps
/-! # Properties C31, C32, C58: how much a decoder builds, and how deep it recurses -/

namespace Xdr

/-! ## C31 -/

theorem readAll_length {ds : List (De Val)} {input rest : Bytes} {vs : List Val}
    (h : readAll ds input = .ok (vs, rest)) : vs.length = ds.length := by
  induction ds generalizing input rest vs with
  | nil =>
    simp only [readAll, M.pure_run, Res.ok.injEq, Prod.mk.injEq] at h
    rw [← h.1]; rfl
  | cons d ds ih =>
    rw [readAll] at h
    obtain ⟨v, mid, _, h2⟩ := M.bind_eq_ok.mp h
    obtain ⟨ws, mid', h3, h4⟩ := M.bind_eq_ok.mp h2
    simp only [M.pure_run, Res.ok.injEq, Prod.mk.injEq] at h4
    rw [← h4.1, List.length_cons, List.length_cons, ih h3]

/-- C31. A decoded `Vec` has at most `(len - 4) / 4` elements when its elements take at least four
bytes each. -/
theorem C31_vec_bounded (env : Env) (n : Nat) (t : Ty) (ht : Sized env t) (b : Bytes) (vs : List Val)
    (h : fromBytes env n (.vec t) b = .ok (.seq vs)) : vs.length ≤ (b.length - 4) / 4 := by
  have h := from_bytes_eq_ok h
  cases n with
  | zero => simp [deTy] at h
  | succ n =>
    rw [deTy_vec] at h
    obtain ⟨c, mid, h1, h2⟩ := M.bind_eq_ok.mp h
    obtain ⟨ws, mid', h3, h4⟩ := M.bind_eq_ok.mp h2
    simp only [M.pure_run, Res.ok.injEq, Prod.mk.injEq, Val.seq.injEq] at h4
    have e1 := eats_u32 _ _ _ h1
    have e2 := Eats.readAll (k := 4) (fun d hd => by
      rw [List.eq_of_mem_replicate hd]; exact sized_eats ht n) _ _ _ h3
    rw [← readAll_length h3, h4.1] at e2
    omega

example : fromBytes Sample.env 9 (.vec (.option .u8)) [0, 0, 0, 2, 0, 0, 0, 0, 0, 0, 0, 0] =
    .ok (.seq [.none, .none]) ∧ Sized Sample.env (.option .u8) := ⟨rfl, .option _⟩

theorem readPairs_length {dk dv : De Val} {n : Nat} {input rest : Bytes} {es : List (Val × Val)}
    (h : readPairs dk dv n input = .ok (es, rest)) : es.length = n := by
  induction n generalizing input rest es with
  | zero =>
    simp only [readPairs, M.pure_run, Res.ok.injEq, Prod.mk.injEq] at h
    rw [← h.1]; rfl
  | succ n ih =>
    rw [readPairs] at h
    obtain ⟨v, mid, _, h2⟩ := M.bind_eq_ok.mp h
    obtain ⟨w, mid', _, h3⟩ := M.bind_eq_ok.mp h2
    obtain ⟨ws, mid'', h4, h5⟩ := M.bind_eq_ok.mp h3
    simp only [M.pure_run, Res.ok.injEq, Prod.mk.injEq] at h5
    rw [← h5.1, List.length_cons, ih h4]

theorem eats_readPairs {dk dv : De Val} {k : Nat} (hk : Eats k dk) (hv : Gen dv) (n : Nat) :
    Eats (k * n) (readPairs dk dv n) := by
  induction n with
  | zero => exact (Gen.pure _).eats
  | succ n ih =>
    have := Eats.bind hk fun k => Eats.second hv fun v => Eats.first ih fun es => Gen.pure ((k, v) :: es)
    rw [Nat.mul_add, Nat.mul_one, Nat.add_comm]
    exact this

/-- C31 for maps: the number of entries, when keys take at least four bytes each. -/
theorem C31_map_bounded (env : Env) (n : Nat) (k v : Ty) (hk : Sized env k) (b : Bytes)
    (es : List (Val × Val)) (h : fromBytes env n (.map k v) b = .ok (.map es)) :
    es.length ≤ (b.length - 4) / 4 := by
  have h := from_bytes_eq_ok h
  cases n with
  | zero => simp [deTy] at h
  | succ n =>
    rw [deTy_map] at h
    obtain ⟨c, mid, h1, h2⟩ := M.bind_eq_ok.mp h
    obtain ⟨ws, mid', h3, h4⟩ := M.bind_eq_ok.mp h2
    simp only [M.pure_run, Res.ok.injEq, Prod.mk.injEq, Val.map.injEq] at h4
    have e1 := eats_u32 _ _ _ h1
    have e2 := eats_readPairs (sized_eats hk n) (built_deTy env n v).gen _ _ _ _ h3
    rw [← readPairs_length h3] at e2
    have e3 := insertAll_length [] ws
    rw [h4.1] at e3
    simp only [List.length_nil] at e3
    omega

example : fromBytes Sample.env 9 (.map .u8 .unit) [0, 0, 0, 2, 0, 0, 0, 7, 0, 0, 0, 7] =
    .ok (.map [(.u8 7, .unit)]) ∧ Sized Sample.env .u8 := ⟨rfl, .u8⟩

theorem readAll_units (env : Env) (n k : Nat) (input : Bytes) :
    readAll (List.replicate k (deTy env (n + 1) .unit)) input =
      .ok (List.replicate k .unit, input) := by
  induction k with
  | zero => rfl
  | succ k ih =>
    rw [List.replicate_succ, readAll, M.bind_ok (show deTy env (n + 1) .unit input = .ok (.unit, input)
      from rfl), M.bind_ok ih]
    rfl

/-- C31. Elements of size zero: any four bytes decode as `Vec<()>` of as many elements as they say,
so four bytes can make 2^32 - 1 elements. -/
theorem C31_amplification (env : Env) (n : Nat) (count : UInt32) :
    fromBytes env (n + 2) (.vec .unit) (Rfc.beBytes 4 count.toNat) =
      .ok (.seq (List.replicate count.toNat .unit)) := by
  have h : deTy env (n + 2) (.vec .unit) (Rfc.beBytes 4 count.toNat) =
      .ok (.seq (List.replicate count.toNat .unit), []) := by
    rw [deTy_vec]
    have := reads_u32 count []
    rw [List.append_nil, ← UInt32.ofNat_toNat (x := count), ← beBytes4, UInt32.ofNat_toNat] at this
    rw [M.bind_ok this, M.bind_ok (readAll_units env n _ [])]
    rfl
  unfold fromBytes
  rw [from_bytes_ok h, if_pos rfl]

/-- C31. The extreme case: the four bytes `ff ff ff ff`. -/
theorem C31_four_bytes (env : Env) (n : Nat) : ∃ vs,
    fromBytes env (n + 2) (.vec .unit) [255, 255, 255, 255] = .ok (.seq vs) ∧
    vs.length = 2 ^ 32 - 1 := by
  have h := C31_amplification env n 4294967295
  have e : Rfc.beBytes 4 (4294967295 : UInt32).toNat = [255, 255, 255, 255] := by decide +kernel
  rw [e] at h
  exact ⟨_, h, by rw [List.length_replicate]; decide +kernel⟩

/-! ## C32 -/

/-- `x` is defined, and its values contain a `y` outside any `Option`, `Vec`, map or enum variant. -/
def Refers (env : Env) (x y : String) : Prop := ∃ d, env x = some d ∧ y ∈ d.bare

theorem countP_lt {α : Type} {p q : α → Bool} {l : List α} (h : ∀ a, p a → q a) {a : α} (ha : a ∈ l)
    (hq : q a) (hp : ¬ p a) : l.countP p < l.countP q := by
  have mono : ∀ l : List α, l.countP p ≤ l.countP q := fun l => List.countP_mono_left fun a _ => h a
  induction l with
  | nil => simp at ha
  | cons x xs ih =>
    have h1 := mono xs
    rcases List.mem_cons.mp ha with rfl | ha
    · rw [List.countP_cons_of_neg hp, List.countP_cons_of_pos hq]; omega
    · have h2 := ih ha
      by_cases hx : p x
      · rw [List.countP_cons_of_pos hx, List.countP_cons_of_pos (h x hx)]; omega
      · rw [List.countP_cons_of_neg hx, List.countP_cons]; omega

open Classical in
/-- The number of defined names reachable from `x`. -/
noncomputable def reachRank (defs : List (String × Def)) (x : String) : Nat :=
  (defs.map (·.1)).countP fun z => decide (Relation.TransGen (Refers (program defs)) x z)

theorem program_mem {defs : List (String × Def)} {x : String} {d : Def}
    (h : program defs x = some d) : (x, d) ∈ defs := by
  unfold program at h
  rw [Option.map_eq_some_iff] at h
  obtain ⟨e, h1, h2⟩ := h
  have h3 := List.find?_some h1
  have h4 := List.mem_of_find?_eq_some h1
  simp only [beq_iff_eq] at h3
  rw [← h3, ← h2]
  exact h4

theorem program_isSome {defs : List (String × Def)} {x : String}
    (h : (program defs x).isSome) : x ∈ defs.map (·.1) := by
  obtain ⟨d, hd⟩ := Option.isSome_iff_exists.mp h
  exact List.mem_map_of_mem (f := (·.1)) (program_mem hd)

theorem reachRank_lt {defs : List (String × Def)}
    (hacyclic : ∀ x, ¬ Relation.TransGen (Refers (program defs)) x x) {x y : String}
    (h : Refers (program defs) x y) (hy : (program defs y).isSome) :
    reachRank defs y < reachRank defs x := by
  refine countP_lt (a := y) ?_ (program_isSome hy) ?_ ?_
  · intro z hz
    simp only [decide_eq_true_eq] at hz ⊢
    exact (Relation.TransGen.single h).trans hz
  · simp only [decide_eq_true_eq]
    exact .single h
  · simp only [decide_eq_true_eq]
    exact hacyclic y

theorem reachRank_le (defs : List (String × Def)) (x : String) : reachRank defs x ≤ defs.length := by
  unfold reachRank
  refine Nat.le_trans List.countP_le_length ?_
  rw [List.length_map]; exact Nat.le_refl _

/-- Nesting of the field types of a program. -/
def maxHeight (defs : List (String × Def)) : Nat := heights (defs.flatMap fun d => d.2.types)

/-- C32. Take a program in which no type contains itself except through an `Option`, a `Vec`, a map
or a variant of an enum (discriminants of `XdrUnion` enums taking at least four bytes), and whose
user-written functions return. Then recursion depth proportional to the input length is enough for
decoding every input. -/
theorem C32_linear_depth (defs : List (String × Def)) (t : Ty)
    (hguarded : ∀ x, ¬ Relation.TransGen (Refers (program defs)) x x)
    (hdisc : ∀ x disc vars impl, (x, Def.union disc vars impl) ∈ defs → Sized (program defs) disc)
    (hreturns : ∀ d ∈ defs, d.2.Returns) (ht : t.Returns) :
    ∃ K, ∀ (b : Bytes) (n : Nat), K * (b.length / 4 + 1) ≤ n →
      fromBytes (program defs) n t b ≠ .depth := by
  have hr : Ranked (program defs) (reachRank defs) (max t.height (maxHeight defs)) defs.length :=
    { returns := fun x d h => hreturns (x, d) (program_mem h)
      height := fun x d h u hu => by
        have : u.height ≤ maxHeight defs := height_le_heights (by
          rw [List.mem_flatMap]
          exact ⟨(x, d), program_mem h, hu⟩)
        omega
      bare := fun x d h y hy hs => reachRank_lt hguarded ⟨d, h, hy⟩ hs
      bound := fun x _ _ => reachRank_le defs x
      sized := fun x disc vars impl h => hdisc x disc vars impl (program_mem h) }
  have hH : t.height ≤ max t.height (maxHeight defs) := Nat.le_max_left _ _
  generalize max t.height (maxHeight defs) = H at hr hH
  refine ⟨t.level (program defs) (reachRank defs) H + (H + (H + 1) * (defs.length + 1)), ?_⟩
  intro b n hn hdepth
  have hfine := fine_deTy hr n t hH ht b.length (by
    generalize H + (H + 1) * (defs.length + 1) = B at hn ⊢
    rw [Nat.mul_add, Nat.mul_one, Nat.add_mul] at hn
    omega) b (Nat.le_refl _)
  unfold fromBytes from_bytes at hdepth
  split at hdepth
  · split at hdepth <;> simp at hdepth
  · simp at hdepth
  · simp at hdepth
  · rename_i h; exact hfine h

/-- The linked list that rpcgen generates for an optional-data cycle, with an enum and a union. -/
def Sample.defs : List (String × Def) :=
  [("Entry", .struct [("item", .string), ("kind", .named "Kind"), ("next", .option (.named "Entry"))]),
   ("Kind", .enum [("Leaf", .unit), ("Many", .newtype (.vec (.named "Kind")))]),
   ("Un", .union .i32 [("One", some [.i32, .named "Un"]), ("Other", some [.i32])]
      { name_by_value := fun v =>
          match v with
          | .i32 1 => .ok "One"
          | _ => .ok "Other" })]

theorem Sample.defs_refers {x y : String} (h : Refers (program Sample.defs) x y) :
    x = "Entry" ∧ y = "Kind" := by
  obtain ⟨d, h1, h2⟩ := h
  have := program_mem h1
  simp only [Sample.defs, List.mem_cons, Prod.mk.injEq, List.not_mem_nil, or_false] at this
  rcases this with ⟨rfl, rfl⟩ | ⟨rfl, rfl⟩ | ⟨rfl, rfl⟩ <;>
    simp [Def.bare, baresOf, Ty.bare] at h2
  exact ⟨rfl, h2⟩

theorem Sample.defs_guarded (x : String) : ¬ Relation.TransGen (Refers (program Sample.defs)) x x := by
  intro h
  have h1 : ∀ y, Relation.TransGen (Refers (program Sample.defs)) x y → y = "Kind" := by
    intro y h
    cases h with
    | single h => exact (Sample.defs_refers h).2
    | tail _ h => exact (Sample.defs_refers h).2
  have h2 : ∀ y, Relation.TransGen (Refers (program Sample.defs)) x y → x = "Entry" := by
    intro y h
    induction h with
    | single h => exact (Sample.defs_refers h).1
    | tail _ _ ih => exact ih
  have := (h2 x h).symm.trans (h1 x h)
  simp at this

theorem Sample.defs_disc (x : String) (disc : Ty) (vars : List (String × Option (List Ty))) (impl : UnionImpl)
    (h : (x, Def.union disc vars impl) ∈ Sample.defs) : Sized (program Sample.defs) disc := by
  simp only [Sample.defs, List.mem_cons, Prod.mk.injEq, List.not_mem_nil, or_false, Def.union.injEq,
    reduceCtorEq, and_false, false_or] at h
  rw [h.2.1]; exact .i32

theorem Sample.defs_returns : ∀ d ∈ Sample.defs, d.2.Returns := by
  intro d hd
  simp only [Sample.defs, List.mem_cons, List.not_mem_nil, or_false] at hd
  rcases hd with rfl | rfl | rfl
  · simp [Def.Returns, Def.types, ReturnsAll, Ty.Returns]
  · simp [Def.Returns, Def.types, Shape.types, ReturnsAll, Ty.Returns]
  · refine ⟨by simp [Def.types, ReturnsAll, Ty.Returns], fun v => ?_⟩
    dsimp only
    split <;> simp

/-- The hypotheses of C32 hold of a mutually recursive program. -/
example : ∃ K, ∀ (b : Bytes) (n : Nat), K * (b.length / 4 + 1) ≤ n →
    fromBytes (program Sample.defs) n (.named "Entry") b ≠ .depth :=
  C32_linear_depth Sample.defs _ Sample.defs_guarded Sample.defs_disc Sample.defs_returns
    (by simp [Ty.Returns])

/-- C32. The recursion bound has no influence on the outcome unless it is hit: decoding has one
result. -/
theorem C32_bound_irrelevant (env : Env) (t : Ty) (b : Bytes) (n m : Nat) (hm : n ≤ m)
    (h : fromBytes env n t b ≠ .depth) : fromBytes env m t b = fromBytes env n t b := by
  have h1 : deTy env n t b ≠ .depth := by
    intro e
    apply h
    unfold fromBytes from_bytes
    rw [e]
  unfold fromBytes from_bytes
  rw [deTy_refines env n m hm t b h1]

example : fromBytes Sample.env 20 Sample.ty Sample.bytes ≠ .depth := by
  rw [C01_roundtrip Sample.env Sample.ty Sample.val Sample.bytes 20 Sample.fits_val (by decide +kernel)
    Sample.toBytes_val]
  simp

/-- C32. The guard is necessary: a type that contains itself directly makes decoding diverge on every
input, however deep the recursion may go. -/
theorem C32_unguarded_diverges (env : Env) (x f : String)
    (hx : env x = some (.struct [(f, .named x)])) (n : Nat) (b : Bytes) :
    fromBytes env n (.named x) b = .depth := by
  have h : ∀ n b, deTy env n (.named x) b = .depth := by
    intro n
    induction n with
    | zero => intro b; rfl
    | succ n ih =>
      intro b
      simp only [deTy, hx, deDef, deserialize_struct]
      rw [visitEach_eq _ _ _ _ (by simp)]
      simp [readAll, M.bind_run, ih b]
  unfold fromBytes from_bytes
  rw [h]

example : program [("Loop", .struct [("again", .named "Loop")])] "Loop" =
    some (.struct [("again", .named "Loop")]) := rfl

/-! ## C58 -/

/-- The linked list `struct node { node *next; };`. -/
def Sample.node : List (String × Def) := [("Node", .struct [("next", .option (.named "Node"))])]

/-- A message with `k` links. -/
def Sample.links : Nat → Bytes
  | 0 => [0, 0, 0, 0]
  | k + 1 => [0, 0, 0, 1] ++ Sample.links k

/-- The list it stands for. -/
def Sample.chain : Nat → Val
  | 0 => .seq [.none]
  | k + 1 => .seq [.some (Sample.chain k)]

theorem Sample.deTy_node (n : Nat) (b : Bytes) :
    deTy (program Sample.node) (n + 1) (.named "Node") b =
      (deTy (program Sample.node) n (.option (.named "Node")) >>= fun v => pure (.seq [v])) b := by
  have : program Sample.node "Node" = some (.struct [("next", .option (.named "Node"))]) := rfl
  simp only [deTy, this, deDef, deserialize_struct]
  rw [visitEach_eq _ _ _ _ (by simp)]
  simp only [List.map_cons, List.map_nil, readAll, M.bind_assoc', M.pure_bind']

theorem Sample.link_some (b : Bytes) : read_u32 ([0, 0, 0, 1] ++ b) = .ok (1, b) := by
  show read_u32 (0 :: 0 :: 0 :: 1 :: b) = _
  rw [read_u32_cons]
  rw [show ofBe32 0 0 0 1 = 1 from by decide +kernel]

theorem Sample.link_none (b : Bytes) : read_u32 ([0, 0, 0, 0] ++ b) = .ok (0, b) := by
  show read_u32 (0 :: 0 :: 0 :: 0 :: b) = _
  rw [read_u32_cons]
  rw [show ofBe32 0 0 0 0 = 0 from by decide +kernel]

theorem Sample.links_depth (k n : Nat) (h : n ≤ 2 * k) :
    deTy (program Sample.node) n (.named "Node") (Sample.links k) = .depth := by
  induction k generalizing n with
  | zero => obtain rfl : n = 0 := by omega
            rfl
  | succ k ih =>
    match n, h with
    | 0, _ => rfl
    | 1, _ => rw [Sample.deTy_node]; rfl
    | n + 2, h =>
      rw [Sample.deTy_node, M.bind_run]
      have : deTy (program Sample.node) (n + 1) (.option (.named "Node")) (Sample.links (k + 1)) =
          .depth := by
        simp only [deTy, deserialize_option, Sample.links]
        rw [M.bind_ok (Sample.link_some _)]
        simp only [show ((1 : UInt32) == 0) = false from rfl, Bool.false_eq_true, if_false]
        rw [M.bind_run, ih n (by omega)]
      rw [this]

theorem Sample.links_ok (k : Nat) :
    deTy (program Sample.node) (2 * k + 2) (.named "Node") (Sample.links k) =
      .ok (Sample.chain k, []) := by
  induction k with
  | zero => rfl
  | succ k ih =>
    rw [Sample.deTy_node]
    have : deTy (program Sample.node) (2 * (k + 1) + 1) (.option (.named "Node"))
        (Sample.links (k + 1)) = .ok (.some (Sample.chain k), []) := by
      simp only [deTy, deserialize_option, Sample.links]
      rw [M.bind_ok (Sample.link_some _)]
      simp only [show ((1 : UInt32) == 0) = false from rfl, Bool.false_eq_true, if_false]
      rw [show 2 * (k + 1) = 2 * k + 2 by omega, M.bind_ok ih]; rfl
    rw [M.bind_ok this]; rfl

theorem Sample.links_length (k : Nat) : (Sample.links k).length = 4 * k + 4 := by
  induction k with
  | zero => rfl
  | succ k ih => rw [Sample.links, List.length_append, ih]; simp; omega

/-- C58. Recursion depth is not bounded by the type: whatever the stack allows, there is a valid
message of a recursive type, not longer than about twice that many bytes, that exhausts it, although
it decodes on a larger stack. -/
theorem C58_stack_exhaustion (n : Nat) : ∃ (b : Bytes) (v : Val),
    b.length ≤ 2 * n + 6 ∧ fromBytes (program Sample.node) n (.named "Node") b = .depth ∧
    ∃ m, fromBytes (program Sample.node) m (.named "Node") b = .ok v := by
  refine ⟨Sample.links ((n + 1) / 2), Sample.chain ((n + 1) / 2), ?_, ?_, 2 * ((n + 1) / 2) + 2, ?_⟩
  · rw [Sample.links_length]; omega
  · unfold fromBytes from_bytes
    rw [Sample.links_depth _ _ (by omega)]
  · unfold fromBytes
    rw [from_bytes_ok (Sample.links_ok _), if_pos rfl]

end Xdr
