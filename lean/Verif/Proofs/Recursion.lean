import Verif.Proofs.Depth
/-! # Lemmas: recursion depth of decoding -/

namespace Xdr

/-! ## The recursion bound does not matter once it is not hit -/

/-- `d'` agrees with `d` wherever `d` does not hit the recursion bound. -/
def Refines {α : Type} (d d' : De α) : Prop := ∀ input, d input ≠ .depth → d' input = d input

theorem Refines.refl {α : Type} (d : De α) : Refines d d := fun _ _ => rfl

theorem Refines.bind {α β : Type} {m m' : De α} {f f' : α → De β} (hm : Refines m m')
    (hf : ∀ a, Refines (f a) (f' a)) : Refines (m >>= f) (m' >>= f') := by
  intro input h
  rw [M.bind_run] at h ⊢
  rw [M.bind_run]
  cases e : m input with
  | depth => rw [e] at h; simp at h
  | ok p =>
    rw [hm input (by simp [e]), e]
    rw [e] at h
    exact hf _ _ h
  | err _ => rw [hm input (by simp [e]), e]
  | panic _ => rw [hm input (by simp [e]), e]

theorem Refines.readAll {α : Type} (xs : List α) {f g : α → De Val}
    (h : ∀ x, Refines (f x) (g x)) : Refines (readAll (xs.map f)) (readAll (xs.map g)) := by
  induction xs with
  | nil => exact .refl _
  | cons x xs ih => exact .bind (h x) fun _ => .bind ih fun _ => .refl _

theorem Refines.readPairs {k k' v v' : De Val} (hk : Refines k k') (hv : Refines v v') (n : Nat) :
    Refines (readPairs k v n) (readPairs k' v' n) := by
  induction n with
  | zero => exact .refl _
  | succ n ih => exact .bind hk fun _ => .bind hv fun _ => .bind ih fun _ => .refl _

theorem Refines.visitEach {α : Type} (exp : String) (xs : List α) {f g : α → De Val}
    (h : ∀ x, Refines (f x) (g x)) (i : Nat) (s : Seq) :
    Refines (visitEach exp (xs.map f) i s) (visitEach exp (xs.map g) i s) := by
  induction xs generalizing i s with
  | nil => exact .refl _
  | cons x xs ih =>
    simp only [List.map_cons, Xdr.visitEach]
    refine .bind ?_ fun p => ?_
    · unfold Seq.next_element
      split
      · exact .refl _
      · exact .bind (h x) fun _ => .refl _
    · split
      · exact .refl _
      · exact .bind (ih _ _) fun _ => .refl _

theorem Refines.visitUnwrap {α : Type} (xs : List α) {f g : α → De Val}
    (h : ∀ x, Refines (f x) (g x)) (s : Seq) :
    Refines (visitUnwrap (xs.map f) s) (visitUnwrap (xs.map g) s) := by
  induction xs generalizing s with
  | nil => exact .refl _
  | cons x xs ih =>
    simp only [List.map_cons, Xdr.visitUnwrap]
    refine .bind ?_ fun p => ?_
    · unfold Seq.next_element
      split
      · exact .refl _
      · exact .bind (h x) fun _ => .refl _
    · split
      · exact .refl _
      · exact .bind (ih _) fun _ => .refl _

theorem Refines.deDef {f g : Ty → De Val} (h : ∀ t, Refines (f t) (g t)) (name : String) (d : Def) :
    Refines (deDef f name d) (deDef g name d) := by
  cases d with
  | unitStruct => exact .refl _
  | newtypeStruct t => exact .bind (h t) fun _ => .refl _
  | tupleStruct ts => exact .bind (.visitEach _ ts h _ _) fun _ => .refl _
  | struct fs => exact .bind (.visitEach _ fs (fun x => h x.2) _ _) fun _ => .refl _
  | enum vars =>
    refine .bind (.refl _) fun i => ?_
    split
    · exact .refl _
    · exact .refl _
    · exact .bind (h _) fun _ => .refl _
    · exact .bind (.visitEach _ _ h _ _) fun _ => .refl _
    · exact .bind (.visitEach _ _ (fun x : String × Ty => h x.2) _ _) fun _ => .refl _
  | indexer vars impl =>
    simp only [Xdr.deDef, deserialize_tuple, visitIndexer]
    refine .bind (.refl _) fun p => ?_
    split
    · exact .refl _
    · split
      · exact .refl _
      · exact .refl _
      · exact .refl _
      · split
        · exact .refl _
        · exact .refl _
        · exact .bind (.visitUnwrap _ h _) fun _ => .refl _
  | union disc vars impl =>
    simp only [Xdr.deDef, deserialize_tuple, visitUnion]
    refine .bind ?_ fun p => ?_
    · unfold Seq.next_element
      split
      · exact .refl _
      · exact .bind (h disc) fun _ => .refl _
    split
    · exact .refl _
    · split
      · exact .refl _
      · exact .refl _
      · exact .refl _
      · split
        · exact .refl _
        · exact .refl _
        · exact .refl _
        · exact .bind (.visitUnwrap _ h _) fun _ => .refl _

theorem deTy_refines (env : Env) (n m : Nat) (hm : n ≤ m) (t : Ty) :
    Refines (deTy env n t) (deTy env m t) := by
  induction n generalizing m t with
  | zero => intro input h; simp [deTy] at h
  | succ n ih =>
    obtain ⟨m, rfl⟩ : ∃ k, m = k + 1 := ⟨m - 1, by omega⟩
    have ih := ih m (by omega)
    cases t with
    | option t =>
      simp only [deTy, deserialize_option]
      refine .bind (.refl _) fun v => ?_
      split
      · exact .refl _
      · exact .bind (ih t) fun _ => .refl _
    | vec t =>
      rw [deTy_vec, deTy_vec]
      refine .bind (.refl _) fun c => .bind ?_ fun _ => .refl _
      have := Refines.readAll (List.replicate c.toNat t) ih
      rwa [List.map_replicate, List.map_replicate] at this
    | array len t =>
      rw [deTy_array, deTy_array]
      refine .bind ?_ fun _ => .refl _
      have := Refines.readAll (List.replicate len t) ih
      rwa [List.map_replicate, List.map_replicate] at this
    | tuple ts =>
      rw [deTy_tuple, deTy_tuple]
      exact .bind (.readAll ts ih) fun _ => .refl _
    | map k v =>
      rw [deTy_map, deTy_map]
      exact .bind (.refl _) fun c => .bind (.readPairs (ih k) (ih v) _) fun _ => .refl _
    | named name =>
      unfold deTy
      dsimp only
      split
      · exact .refl _
      · exact .deDef ih name _
    | _ => exact .refl _

/-! ## Levels -/

mutual
/-- Nesting of type constructors, not looking into named types. -/
def Ty.height : Ty → Nat
  | .option t => t.height + 1
  | .vec t => t.height + 1
  | .array _ t => t.height + 1
  | .tuple ts => heights ts + 1
  | .map k v => max k.height v.height + 1
  | _ => 1

def heights : List Ty → Nat
  | [] => 0
  | t :: ts => max t.height (heights ts)
end

theorem height_le_heights {t : Ty} {ts : List Ty} (h : t ∈ ts) : t.height ≤ heights ts := by
  induction ts with
  | nil => simp at h
  | cons u us ih =>
    rw [heights]
    rcases List.mem_cons.mp h with rfl | h
    · omega
    · have := ih h; omega

theorem height_pos (t : Ty) : 1 ≤ t.height := by
  cases t <;> simp [Ty.height]

section
variable (env : Env) (rank : String → Nat) (H : Nat)

mutual
/-- Recursion bound a type needs before it has consumed four bytes. -/
def Ty.level : Ty → Nat
  | .array _ t => t.level + 1
  | .tuple ts => levels ts + 1
  | .named x => if (env x).isSome then (H + 1) * (rank x + 1) else 1
  | _ => 1

def levels : List Ty → Nat
  | [] => 0
  | t :: ts => max t.level (levels ts)
end

theorem level_le_levels {t : Ty} {ts : List Ty} (h : t ∈ ts) :
    t.level env rank H ≤ levels env rank H ts := by
  induction ts with
  | nil => simp at h
  | cons u us ih =>
    rw [levels]
    rcases List.mem_cons.mp h with rfl | h
    · omega
    · have := ih h; omega

mutual
theorem level_le (m : Nat) : ∀ (t : Ty),
    (∀ y ∈ t.bare, (env y).isSome → rank y + 1 ≤ m) → t.level env rank H ≤ t.height + (H + 1) * m
  | .array _ t, h => by
    have := level_le m t (by simpa [Ty.bare] using h)
    simp only [Ty.level, Ty.height]; omega
  | .tuple ts, h => by
    have := levels_le m ts (by simpa [Ty.bare] using h)
    simp only [Ty.level, Ty.height]; omega
  | .named x, h => by
    simp only [Ty.level, Ty.height]
    split
    · rename_i hx
      have := Nat.mul_le_mul_left (H + 1) (h x (by simp [Ty.bare]) hx)
      omega
    · omega
  | .bool, _ => by simp [Ty.level, Ty.height]
  | .i8, _ => by simp [Ty.level, Ty.height]
  | .i16, _ => by simp [Ty.level, Ty.height]
  | .i32, _ => by simp [Ty.level, Ty.height]
  | .i64, _ => by simp [Ty.level, Ty.height]
  | .u8, _ => by simp [Ty.level, Ty.height]
  | .u16, _ => by simp [Ty.level, Ty.height]
  | .u32, _ => by simp [Ty.level, Ty.height]
  | .u64, _ => by simp [Ty.level, Ty.height]
  | .f32, _ => by simp [Ty.level, Ty.height]
  | .f64, _ => by simp [Ty.level, Ty.height]
  | .char, _ => by simp [Ty.level, Ty.height]
  | .string, _ => by simp [Ty.level, Ty.height]
  | .bytes, _ => by simp [Ty.level, Ty.height]
  | .unit, _ => by simp [Ty.level, Ty.height]
  | .option _, _ => by simp only [Ty.level, Ty.height]; omega
  | .vec _, _ => by simp only [Ty.level, Ty.height]; omega
  | .map _ _, _ => by simp only [Ty.level, Ty.height]; omega
  | .opaqueFixed _, _ => by simp [Ty.level, Ty.height]
  | .opaqueVar, _ => by simp [Ty.level, Ty.height]
  | .signed32 _ _, _ => by simp [Ty.level, Ty.height]

theorem levels_le (m : Nat) : ∀ (ts : List Ty),
    (∀ y ∈ baresOf ts, (env y).isSome → rank y + 1 ≤ m) →
    levels env rank H ts ≤ heights ts + (H + 1) * m
  | [], _ => by simp [levels]
  | t :: ts, h => by
    have h1 := level_le m t fun y hy => h y (by simp [baresOf, hy])
    have h2 := levels_le m ts fun y hy => h y (by simp [baresOf, hy])
    simp only [levels, heights]
    omega
end
end

/-! ## Decoding does not hit the bound -/

/-- Started on at most `4 * w` … bytes, `d` does not hit the recursion bound. -/
def Fine {α : Type} (d : De α) (len : Nat) : Prop := ∀ input, input.length ≤ len → d input ≠ .depth

theorem Fine.pure {α : Type} (a : α) (len : Nat) : Fine (Pure.pure a : De α) len := by
  intro input _; simp

theorem Fine.bind {α β : Type} {m : De α} {f : α → De β} {k len : Nat} (hm : Fine m len)
    (he : Eats k m) (hf : ∀ a, ∀ l, l + k ≤ len → Fine (f a) l) : Fine (m >>= f) len := by
  intro input hi
  rw [M.bind_run]
  have := hm input hi
  cases e : m input with
  | depth => exact absurd e this
  | ok p =>
    obtain ⟨a, rest⟩ := p
    have := he _ _ _ e
    exact hf a rest.length (by omega) rest (Nat.le_refl _)
  | err _ => simp
  | panic _ => simp

theorem Fine.mono {α : Type} {d : De α} {l len : Nat} (h : Fine d len) (hl : l ≤ len) : Fine d l :=
  fun input hi => h input (by omega)

theorem Fine.bind0 {α β : Type} {m : De α} {f : α → De β} {len : Nat} (hm : Fine m len)
    (hg : Gen m) (hf : ∀ a, Fine (f a) len) : Fine (m >>= f) len :=
  .bind hm hg.eats fun a _ hl => (hf a).mono (by omega)

theorem Fine.readAll {ds : List (De Val)} {len : Nat} (hg : ∀ d ∈ ds, Gen d)
    (h : ∀ d ∈ ds, Fine d len) : Fine (readAll ds) len := by
  induction ds with
  | nil => exact .pure _ _
  | cons d ds ih =>
    have hg' : ∀ d ∈ ds, Gen d := fun x hx => hg x (by simp [hx])
    exact .bind0 (h d (by simp)) (hg d (by simp)) fun _ =>
      .bind0 (ih hg' fun x hx => h x (by simp [hx])) (.readAll hg') fun _ => .pure _ _

theorem Gen.readPairs {k v : De Val} (hk : Gen k) (hv : Gen v) (n : Nat) : Gen (readPairs k v n) := by
  induction n with
  | zero => exact .pure _
  | succ n ih => exact .bind hk fun _ => .bind hv fun _ => .bind ih fun _ => .pure _

theorem Fine.readPairs {k v : De Val} {len : Nat} (hgk : Gen k) (hgv : Gen v) (hk : Fine k len)
    (hv : Fine v len) (n : Nat) : Fine (readPairs k v n) len := by
  induction n with
  | zero => exact .pure _ _
  | succ n ih =>
    exact .bind0 hk hgk fun _ => .bind0 hv hgv fun _ => .bind0 ih (.readPairs hgk hgv n) fun _ =>
      .pure _ _

theorem Gen.visitUnwrap (ds : List (De Val)) (s : Seq) (hg : ∀ d ∈ ds, Gen d) :
    Gen (visitUnwrap ds s) := by
  induction ds generalizing s with
  | nil => exact .pure _
  | cons d ds ih =>
    unfold Xdr.visitUnwrap
    refine .bind ?_ fun p => ?_
    · unfold Seq.next_element
      split
      · exact .pure _
      · exact .bind (hg d (by simp)) fun _ => .pure _
    · obtain ⟨o, s'⟩ := p
      dsimp only
      split
      · exact .panic _
      · exact .bind (ih _ fun x hx => hg x (by simp [hx])) fun _ => .pure _

theorem Fine.visitUnwrap {len : Nat} (ds : List (De Val)) (s : Seq) (hg : ∀ d ∈ ds, Gen d)
    (h : ∀ d ∈ ds, Fine d len) : Fine (visitUnwrap ds s) len := by
  induction ds generalizing s with
  | nil => exact .pure _ _
  | cons d ds ih =>
    have hg' : ∀ d ∈ ds, Gen d := fun x hx => hg x (by simp [hx])
    unfold Xdr.visitUnwrap Seq.next_element
    split
    · intro input _; simp [M.bind_run]
    · rw [M.bind_assoc']
      refine .bind0 (h d (by simp)) (hg d (by simp)) fun v => ?_
      rw [M.pure_bind']
      exact .bind0 (ih _ hg' fun x hx => h x (by simp [hx]))
        (.visitUnwrap _ _ hg') fun _ => .pure _ _

theorem Fine.of {α : Type} {d : De α} (h : ∀ input, d input ≠ .depth) (len : Nat) : Fine d len :=
  fun input _ => h input

theorem fine_u32 (len : Nat) : Fine read_u32 len := by
  refine .of (fun input => ?_) len
  by_cases h : input.length < 4
  · rw [read_u32_lt h]; simp
  · obtain ⟨a, b, c, d, rest, rfl⟩ := exists_word (Nat.not_lt.mp h)
    rw [read_u32_cons]; simp

theorem fine_u64 (len : Nat) : Fine read_u64 len := by
  refine .of (fun input => ?_) len
  by_cases h : input.length < 8
  · rw [read_u64_lt h]; simp
  · obtain ⟨a, b, c, d, e, f, g, i, rest, rfl⟩ := exists_dword (Nat.not_lt.mp h)
    rw [read_u64_cons]; simp

theorem fine_i32 (len : Nat) : Fine read_i32 len := by
  rw [read_i32_eq]; exact .bind0 (fine_u32 _) .u32 fun _ => .pure _ _

theorem fine_i64 (len : Nat) : Fine read_i64 len := by
  rw [read_i64_eq]; exact .bind0 (fine_u64 _) .u64 fun _ => .pure _ _

theorem fine_char (len : Nat) : Fine read_char len := by
  unfold read_char
  refine .bind0 (fine_u32 _) .u32 fun c => ?_
  split
  · exact .pure _ _
  · exact .of (by simp) _

theorem fine_string (len : Nat) : Fine read_string len := by
  refine .of (fun input => ?_) len
  by_cases h : input.length < 4
  · rw [read_string_lt h]; simp
  · obtain ⟨a, b, c, d, rest, rfl⟩ := exists_word (Nat.not_lt.mp h)
    rw [read_string_run a b c d rest _ rfl]
    generalize (ofBe32 a b c d).toNat = n
    split
    · simp
    · split
      · simp
      · split <;> simp

theorem fine_bytes (len : Nat) : Fine read_bytes len := by
  refine .of (fun input => ?_) len
  by_cases h : input.length < 4
  · rw [read_bytes_lt h]; simp
  · obtain ⟨a, b, c, d, rest, rfl⟩ := exists_word (Nat.not_lt.mp h)
    rw [read_bytes_run a b c d rest _ rfl]
    generalize (ofBe32 a b c d).toNat = n
    split
    · simp
    · split <;> simp

theorem fine_fixed (n len : Nat) : Fine (fixed_deserialize n) len := by
  refine .of (fun input => ?_) len
  rw [fixed_deserialize_run]
  split <;> simp

theorem fine_variable (len : Nat) : Fine variable_deserialize len := by
  refine .of (fun input => ?_) len
  by_cases h : input.length < 4
  · rw [variable_deserialize_lt h]; simp
  · obtain ⟨a, b, c, d, rest, rfl⟩ := exists_word (Nat.not_lt.mp h)
    rw [variable_deserialize_run a b c d rest _ rfl]
    split <;> simp

theorem returnsAll_iff (ts : List Ty) : ReturnsAll ts ↔ ∀ t ∈ ts, t.Returns := by
  induction ts with
  | nil => simp [ReturnsAll]
  | cons t ts ih => simp [ReturnsAll, ih]

theorem baresOf_mem {t : Ty} {ts : List Ty} (h : t ∈ ts) {y : String} (hy : y ∈ t.bare) :
    y ∈ baresOf ts := by
  induction ts with
  | nil => simp at h
  | cons u us ih =>
    rw [baresOf, List.mem_append]
    rcases List.mem_cons.mp h with rfl | h
    · exact .inl hy
    · exact .inr (ih h)

theorem findVariant_mem {α : Type} {name : String} {vars : List (String × α)} {k i : Nat} {a : α}
    (h : findVariant name vars k = some (i, a)) : (name, a) ∈ vars := by
  induction vars generalizing k with
  | nil => simp [findVariant] at h
  | cons x xs ih =>
    obtain ⟨n, b⟩ := x
    rw [findVariant] at h
    split at h
    · rename_i hn
      simp only [Option.some.injEq, Prod.mk.injEq] at h
      rw [← h.2, hn]; simp
    · simp [ih h]

/-- What the depth theorem needs of a program: `rank` decreases along unguarded references, `H` bounds
the nesting in field types, `R` the ranks. -/
structure Ranked (env : Env) (rank : String → Nat) (H R : Nat) : Prop where
  returns : ∀ x d, env x = some d → d.Returns
  height : ∀ x d, env x = some d → ∀ t ∈ d.types, t.height ≤ H
  bare : ∀ x d, env x = some d → ∀ y ∈ d.bare, (env y).isSome → rank y < rank x
  bound : ∀ x d, env x = some d → rank x ≤ R
  sized : ∀ x disc vars impl, env x = some (.union disc vars impl) → Sized env disc

theorem fine_deTy {env : Env} {rank : String → Nat} {H R : Nat} (hr : Ranked env rank H R) :
    ∀ (n : Nat) (t : Ty), t.height ≤ H → t.Returns → ∀ len,
      t.level env rank H + (H + (H + 1) * (R + 1)) * (len / 4) ≤ n → Fine (deTy env n t) len := by
  generalize hB : H + (H + 1) * (R + 1) = B
  intro n
  induction n with
  | zero =>
    intro t _ _ len h
    have : 1 ≤ t.level env rank H := by
      cases t <;> simp [Ty.level]
      split
      · exact Nat.mul_pos (by omega) (by omega)
      · omega
    omega
  | succ n ih =>
    intro t hh hret len hn
    have hg := fun t => (built_deTy env n t).gen
    -- children read after at least four bytes
    have guarded : ∀ t : Ty, t.height ≤ H → t.Returns → 1 + B * (len / 4) ≤ n + 1 → ∀ l, l + 4 ≤ len →
        Fine (deTy env n t) l := by
      intro t hh hret hn l hl
      refine ih t hh hret l ?_
      have h1 : t.level env rank H ≤ t.height + (H + 1) * (R + 1) := level_le env rank H _ t (by
        intro y _ hy
        obtain ⟨d, hd⟩ := Option.isSome_iff_exists.mp hy
        have := hr.bound y d hd
        omega)
      have h2 : l / 4 + 1 ≤ len / 4 := by omega
      have h3 := Nat.mul_le_mul_left B h2
      rw [Nat.mul_add, Nat.mul_one] at h3
      omega
    cases t with
    | bool => exact .bind0 (fine_u32 _) .u32 fun _ => .pure _ _
    | i8 => exact .bind0 (fine_i32 _) .i32 fun _ => .pure _ _
    | i16 => exact .bind0 (fine_i32 _) .i32 fun _ => .pure _ _
    | i32 => exact .bind0 (fine_i32 _) .i32 fun _ => .pure _ _
    | i64 => exact .bind0 (fine_i64 _) .i64 fun _ => .pure _ _
    | u8 => exact .bind0 (fine_u32 _) .u32 fun _ => .pure _ _
    | u16 => exact .bind0 (fine_u32 _) .u32 fun _ => .pure _ _
    | u32 => exact .bind0 (fine_u32 _) .u32 fun _ => .pure _ _
    | u64 => exact .bind0 (fine_u64 _) .u64 fun _ => .pure _ _
    | f32 => exact .bind0 (fine_u32 _) .u32 fun _ => .pure _ _
    | f64 => exact .bind0 (fine_u64 _) .u64 fun _ => .pure _ _
    | char => exact .bind0 (fine_char _) .char fun _ => .pure _ _
    | string => exact .bind0 (fine_string _) .string fun _ => .pure _ _
    | bytes => exact .bind0 (fine_bytes _) .bytes fun _ => .pure _ _
    | unit => exact .pure _ _
    | opaqueFixed m => exact .bind0 (fine_fixed _ _) (built_fixed m).gen fun _ => .pure _ _
    | opaqueVar => exact .bind0 (fine_variable _) built_variable.gen fun _ => .pure _ _
    | signed32 _ impl =>
      simp only [Ty.Returns] at hret
      simp only [deTy, signed32_deserialize]
      refine .bind0 (.bind0 (fine_i32 _) .i32 fun _ => .pure _ _) (.bind .i32 fun _ => .pure _)
        fun v => ?_
      split
      · exact .of (by simp) _
      · refine .of (fun input => ?_) _
        have := hret v
        unfold M.ofRes
        cases e : impl.try_from v <;> simp_all [M.pure]
    | option t =>
      simp only [Ty.height] at hh
      simp only [Ty.Returns] at hret
      simp only [Ty.level] at hn
      simp only [deTy, deserialize_option]
      refine .bind (fine_u32 _) eats_u32 fun v l hl => ?_
      split
      · exact .pure _ _
      · exact .bind0 (guarded t (by omega) hret hn l hl) (hg t) fun _ => .pure _ _
    | vec t =>
      simp only [Ty.height] at hh
      simp only [Ty.Returns] at hret
      simp only [Ty.level] at hn
      rw [deTy_vec]
      refine .bind (fine_u32 _) eats_u32 fun c l hl => ?_
      have h1 : ∀ d ∈ List.replicate c.toNat (deTy env n t), Gen d := fun d hd => by
        rw [List.eq_of_mem_replicate hd]; exact hg t
      refine .bind0 (.readAll h1 fun d hd => ?_) (.readAll h1) fun _ => .pure _ _
      rw [List.eq_of_mem_replicate hd]
      exact guarded t (by omega) hret hn l hl
    | map k v =>
      simp only [Ty.height] at hh
      simp only [Ty.Returns] at hret
      simp only [Ty.level] at hn
      rw [deTy_map]
      refine .bind (fine_u32 _) eats_u32 fun c l hl => ?_
      exact .bind0 (.readPairs (hg k) (hg v) (guarded k (by omega) hret.1 hn l hl)
        (guarded v (by omega) hret.2 hn l hl) _) (.readPairs (hg k) (hg v) _) fun _ => .pure _ _
    | array m t =>
      simp only [Ty.height] at hh
      simp only [Ty.Returns] at hret
      simp only [Ty.level] at hn
      rw [deTy_array]
      have h1 : ∀ d ∈ List.replicate m (deTy env n t), Gen d := fun d hd => by
        rw [List.eq_of_mem_replicate hd]; exact hg t
      refine .bind0 (.readAll h1 fun d hd => ?_) (.readAll h1) fun _ => .pure _ _
      rw [List.eq_of_mem_replicate hd]
      exact ih t (by omega) hret len (by omega)
    | tuple ts =>
      simp only [Ty.height] at hh
      simp only [Ty.Returns, returnsAll_iff] at hret
      simp only [Ty.level] at hn
      rw [deTy_tuple]
      refine .bind0 (.readAll (gens env n ts) fun d hd => ?_) (.readAll (gens env n ts)) fun _ =>
        .pure _ _
      obtain ⟨t, ht, rfl⟩ := List.mem_map.mp hd
      have h1 := height_le_heights ht
      have h2 := level_le_levels env rank H ht
      exact ih t (by omega) (hret t ht) len (by omega)
    | named x =>
      unfold deTy
      dsimp only
      split
      · exact .of (by simp) _
      · rename_i d hd
        have hx : (env x).isSome = true := by simp [hd]
        simp only [Ty.level, hx, if_true] at hn
        obtain ⟨hret, huser⟩ := hr.returns x d hd
        rw [returnsAll_iff] at hret
        have hheight := hr.height x d hd
        have hbare := hr.bare x d hd
        have hguard : 1 + B * (len / 4) ≤ n + 1 := by
          have : 1 * 1 ≤ (H + 1) * (rank x + 1) := Nat.mul_le_mul (by omega) (by omega)
          omega
        -- a field read at once
        have plain : ∀ t ∈ d.types, (∀ y ∈ t.bare, y ∈ d.bare) → Fine (deTy env n t) len := by
          intro t ht hb
          have h1 := hheight t ht
          refine ih t h1 (hret t ht) len ?_
          have := level_le env rank H (rank x) t fun y hy hs => hbare y (hb y hy) hs
          rw [Nat.mul_add, Nat.mul_one] at hn
          omega
        cases d with
        | unitStruct => exact .pure _ _
        | newtypeStruct t =>
          exact .bind0 (plain t (by simp [Def.types]) (by simp [Def.bare])) (hg t) fun _ => .pure _ _
        | tupleStruct ts =>
          simp only [deDef, deserialize_tuple_struct]
          rw [visitEach_eq _ _ _ _ (by simp)]
          refine .bind0 (.readAll (gens env n ts) fun e he => ?_) (.readAll (gens env n ts)) fun _ =>
            .pure _ _
          obtain ⟨t, ht, rfl⟩ := List.mem_map.mp he
          exact plain t (by simpa [Def.types] using ht) fun y hy => by
            simpa [Def.bare] using baresOf_mem ht hy
        | struct fs =>
          simp only [deDef, deserialize_struct]
          rw [visitEach_eq _ _ _ _ (by simp)]
          have hgs := gens env n (fs.map (·.2))
          rw [List.map_map] at hgs
          refine .bind0 (.readAll hgs fun e he => ?_) (.readAll hgs) fun _ => .pure _ _
          obtain ⟨f, hf, rfl⟩ := List.mem_map.mp he
          have ht : f.2 ∈ fs.map (·.2) := List.mem_map_of_mem hf
          exact plain f.2 (by simpa [Def.types] using ht) fun y hy => by
            simpa [Def.bare] using baresOf_mem ht hy
        | enum vars =>
          simp only [deDef, deserialize_enum]
          have he : Eats 4 (Enum_variant_seed (variantIndex vars.length)) := by
            refine .first eats_i32 fun i => ?_
            split
            · exact .fail _ (by simp) (by simp)
            · unfold variantIndex
              split
              · exact .pure _
              · exact .fail _ (by simp) (by simp)
          have hf : Fine (Enum_variant_seed (variantIndex vars.length)) len := by
            refine .bind0 (fine_i32 _) .i32 fun i => ?_
            split
            · exact .of (by simp) _
            · unfold variantIndex
              split
              · exact .pure _ _
              · exact .of (by simp) _
          refine .bind hf he fun i l hl => ?_
          have hm : ∀ v, vars[i]? = some v → ∀ t ∈ v.2.types, Fine (deTy env n t) l := by
            intro v hv t ht
            have : t ∈ (Def.enum vars).types := by
              simp only [Def.types, List.mem_flatMap]
              exact ⟨v, List.mem_of_getElem? hv, ht⟩
            exact guarded t (hheight t this) (hret t this) hguard l hl
          split
          · exact .of (by simp) _
          · exact .pure _ _
          · rename_i t hv
            exact .bind0 (hm _ hv t (by simp [Shape.types])) (hg _) fun _ => .pure _ _
          · rename_i ts hv
            simp only [Enum_tuple_variant, deserialize_tuple]
            rw [visitEach_eq _ _ _ _ (by simp)]
            refine .bind0 (.readAll (gens env n ts) fun e he => ?_) (.readAll (gens env n ts)) fun _ =>
              .pure _ _
            obtain ⟨t, ht, rfl⟩ := List.mem_map.mp he
            exact hm _ hv t (by simpa [Shape.types] using ht)
          · rename_i fs hv
            simp only [Enum_struct_variant, deserialize_tuple]
            rw [visitEach_eq _ _ _ _ (by simp)]
            have hgs := gens env n (fs.map (·.2))
            rw [List.map_map] at hgs
            refine .bind0 (.readAll hgs fun e he => ?_) (.readAll hgs) fun _ => .pure _ _
            obtain ⟨f, hf, rfl⟩ := List.mem_map.mp he
            have ht : f.2 ∈ fs.map (·.2) := List.mem_map_of_mem hf
            exact hm _ hv f.2 (by simpa [Shape.types] using ht)
        | indexer vars impl =>
          simp only [] at huser
          simp only [deDef, deserialize_tuple, visitIndexer]
          have e : ∀ d : De Int32, Seq.next_element { count := 10 } d =
              (d >>= fun v => Pure.pure (some v, { count := 9 })) := fun _ => rfl
          rw [e, M.bind_assoc']
          refine .bind (k := 4) (.bind0 (fine_i32 _) .i32 fun _ => .pure _ _)
            (.first eats_i32 fun _ => .pure _) fun i l hl => ?_
          rw [M.pure_bind']
          dsimp only
          split
          · exact .of (by simp) _
          · exact .of (by simp) _
          · rename_i h; exact absurd h (huser i)
          · rename_i vn _
            split
            · exact .of (by simp) _
            · exact .pure _ _
            · rename_i j ts hv
              refine .bind0 (.visitUnwrap _ _ (gens env n ts) fun e he => ?_)
                (.visitUnwrap _ _ (gens env n ts)) fun _ => .pure _ _
              obtain ⟨t, ht, rfl⟩ := List.mem_map.mp he
              have : t ∈ (Def.indexer vars impl).types := by
                simp only [Def.types, List.mem_flatMap]
                exact ⟨_, findVariant_mem hv, ht⟩
              exact guarded t (hheight t this) (hret t this) hguard l hl
        | union disc vars impl =>
          simp only [] at huser
          simp only [deDef, deserialize_tuple, visitUnion]
          have e : ∀ d : De Val, Seq.next_element { count := 10 } d =
              (d >>= fun v => Pure.pure (some v, { count := 9 })) := fun _ => rfl
          rw [e, M.bind_assoc']
          refine .bind (k := 4) (plain disc (by simp [Def.types]) (by simp [Def.bare]))
            (sized_eats (hr.sized _ _ _ _ hd) n) fun i l hl => ?_
          rw [M.pure_bind']
          dsimp only
          split
          · exact .of (by simp) _
          · exact .of (by simp) _
          · rename_i h; exact absurd h (huser i)
          · split
            · exact .of (by simp) _
            · exact .pure _ _
            · exact .pure _ _
            · rename_i j a ts hv
              refine .bind0 (.visitUnwrap _ _ (gens env n ts) fun e he => ?_)
                (.visitUnwrap _ _ (gens env n ts)) fun _ => .pure _ _
              obtain ⟨t, ht, rfl⟩ := List.mem_map.mp he
              have : t ∈ (Def.union disc vars impl).types := by
                simp only [Def.types, List.mem_cons, List.mem_flatMap]
                exact .inr ⟨_, findVariant_mem hv, by simp [ht]⟩
              exact guarded t (hheight t this) (hret t this) hguard l hl

end Xdr
