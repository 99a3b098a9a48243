import Verif.Proofs.DeBuilt
import Verif.Proofs.Product
import Verif.Spec.Classes
/-! # Lemmas: decoders that do not panic -/

namespace Xdr

/-- With `text`, only inputs of a whole number of words are considered. -/
def Input (text : Bool) (input : Bytes) : Prop := text = false ∨ input.length % 4 = 0

/-- The decoder does not panic. -/
structure Safe (text : Bool) {α : Type} (d : De α) : Prop where
  gen : Gen d
  run : ∀ input, Input text input → ∀ p, d input ≠ .panic p

theorem Safe.bindP {text : Bool} {α β : Type} {m : De α} {f : α → De β} (P : α → Prop)
    (hm : Safe text m) (hP : ∀ input a rest, m input = .ok (a, rest) → P a) (hg : Gen (m >>= f))
    (hf : ∀ a, P a → Safe text (f a)) : Safe text (m >>= f) := by
  refine ⟨hg, fun input hi p => ?_⟩
  cases hr : m input with
  | ok x =>
    obtain ⟨a, rest⟩ := x
    rw [M.bind_ok hr]
    refine (hf a (hP _ _ _ hr)).run rest ?_ p
    obtain ⟨used, h1, h2, _⟩ := hm.gen.local hr
    rcases hi with hi | hi
    · exact .inl hi
    · refine .inr ?_
      rw [h1, List.length_append] at hi
      omega
  | err e => rw [M.bind_err hr]; simp
  | panic q => exact absurd hr (hm.run input hi q)
  | depth =>
    intro h
    rw [M.bind_run, hr] at h
    simp at h

theorem Safe.bind {text : Bool} {α β : Type} {m : De α} {f : α → De β} (hm : Safe text m)
    (hf : ∀ a, Safe text (f a)) : Safe text (m >>= f) :=
  .bindP (fun _ => True) hm (fun _ _ _ _ => trivial) (.bind hm.gen fun a => (hf a).gen) fun a _ => hf a

theorem Safe.pure {text : Bool} {α : Type} (a : α) : Safe text (Pure.pure a : De α) :=
  ⟨.pure a, by simp⟩

theorem Safe.custom {text : Bool} {α : Type} (m : String) : Safe text (M.fail (.custom m) : De α) :=
  ⟨.fail _ (by simp) (by simp), by simp⟩

theorem Safe.convert {text : Bool} {α : Type} : Safe text (M.fail .convert : De α) :=
  ⟨.fail _ (by simp) (by simp), by simp⟩

theorem Safe.depth {text : Bool} {α : Type} : Safe text (M.depth : De α) := ⟨.depth, by simp⟩

theorem Safe.u32 {text : Bool} : Safe text read_u32 := by
  refine ⟨.u32, fun input _ p => ?_⟩
  by_cases h : input.length < 4
  · rw [read_u32_lt h]; simp
  · obtain ⟨a, b, c, d, rest, rfl⟩ := exists_word (Nat.not_lt.mp h)
    rw [read_u32_cons]; simp

theorem Safe.u64 {text : Bool} : Safe text read_u64 := by
  refine ⟨.u64, fun input _ p => ?_⟩
  by_cases h : input.length < 8
  · rw [read_u64_lt h]; simp
  · obtain ⟨a, b, c, d, e, f, g, i, rest, rfl⟩ := exists_dword (Nat.not_lt.mp h)
    rw [read_u64_cons]; simp

theorem Safe.i32 {text : Bool} : Safe text read_i32 := by
  rw [read_i32_eq]; exact .bind .u32 fun _ => .pure _

theorem Safe.i64 {text : Bool} : Safe text read_i64 := by
  rw [read_i64_eq]; exact .bind .u64 fun _ => .pure _

theorem Safe.char {text : Bool} : Safe text read_char := by
  unfold read_char
  refine .bind .u32 fun c => ?_
  split
  · exact .pure _
  · exact .convert

theorem Safe.string : Safe true read_string := by
  refine ⟨.string, fun input hi p => ?_⟩
  have hi : input.length % 4 = 0 := by rcases hi with h | h; (simp at h); exact h
  by_cases h : input.length < 4
  · rw [read_string_lt h]; simp
  · obtain ⟨a, b, c, d, rest, rfl⟩ := exists_word (Nat.not_lt.mp h)
    rw [read_string_run a b c d rest _ rfl]
    generalize (ofBe32 a b c d).toNat = n
    simp only [List.length_cons] at hi
    have := padLen_add n
    have := padLen_lt n
    by_cases h1 : rest.length < n
    · rw [if_pos h1]; simp
    · rw [if_neg h1]
      cases utf8Decode (rest.take n) with
      | none => simp
      | some s =>
        simp only []
        rw [if_neg (by omega)]; simp

theorem Safe.bytes : Safe true read_bytes := by
  refine ⟨.bytes, fun input hi p => ?_⟩
  have hi : input.length % 4 = 0 := by rcases hi with h | h; (simp at h); exact h
  by_cases h : input.length < 4
  · rw [read_bytes_lt h]; simp
  · obtain ⟨a, b, c, d, rest, rfl⟩ := exists_word (Nat.not_lt.mp h)
    rw [read_bytes_run a b c d rest _ rfl]
    generalize (ofBe32 a b c d).toNat = n
    simp only [List.length_cons] at hi
    have := padLen_add n
    have := padLen_lt n
    by_cases h1 : rest.length < n
    · rw [if_pos h1]; simp
    · rw [if_neg h1, if_neg (by omega)]; simp

theorem Safe.next {text : Bool} {α : Type} {d : De α} (h : Safe text d) (s : Seq) :
    Safe text (s.next_element d) := by
  unfold Seq.next_element
  split
  · exact .pure _
  · exact .bind h fun _ => .pure _

theorem Safe.readAll {text : Bool} {ds : List (De Val)} (h : ∀ d ∈ ds, Safe text d) :
    Safe text (readAll ds) := by
  induction ds with
  | nil => exact .pure _
  | cons d ds ih =>
    exact .bind (h d (by simp)) fun _ => .bind (ih fun x hx => h x (by simp [hx])) fun _ => .pure _

theorem Safe.visitVec {text : Bool} {d : De Val} (h : Safe text d) :
    ∀ (n : Nat) (s : Seq), Safe text (visitVec d n s)
  | 0, _ => .depth
  | n + 1, s => by
    unfold Xdr.visitVec
    refine .bind (h.next s) fun p => ?_
    obtain ⟨o, s'⟩ := p
    cases o with
    | none => exact .pure _
    | some v => exact .bind (Safe.visitVec h n s') fun _ => .pure _

theorem Safe.visitMap {text : Bool} {dk dv : De Val} (hk : Safe text dk) (hv : Safe text dv) :
    ∀ (n : Nat) (s : MapAcc) (es : List (Val × Val)), Safe text (visitMap dk dv n s es)
  | 0, _, _ => .depth
  | n + 1, s, es => by
    unfold Xdr.visitMap
    have : Safe text (s.next_key dk) := by
      unfold MapAcc.next_key
      split
      · exact .pure _
      · exact .bind hk fun _ => .pure _
    refine .bind this fun p => ?_
    obtain ⟨o, s'⟩ := p
    cases o with
    | none => exact .pure _
    | some v => exact .bind hv fun _ => Safe.visitMap hk hv n _ _

theorem Safe.fixed {text : Bool} (n : Nat) : Safe text (fixed_deserialize n) := by
  refine ⟨(built_fixed n).gen, fun input _ p => ?_⟩
  rw [fixed_deserialize_run]
  split <;> simp

theorem Safe.variable {text : Bool} : Safe text variable_deserialize := by
  refine ⟨built_variable.gen, fun input _ p => ?_⟩
  by_cases h : input.length < 4
  · rw [variable_deserialize_lt h]; simp
  · obtain ⟨a, b, c, d, rest, rfl⟩ := exists_word (Nat.not_lt.mp h)
    rw [variable_deserialize_run a b c d rest _ rfl]
    split <;> simp

theorem tysOk_iff (env : Env) (text : Bool) (ts : List Ty) :
    TysOk env text ts ↔ ∀ t ∈ ts, t.Ok env text := by
  induction ts with
  | nil => simp [TysOk]
  | cons t ts ih => simp [TysOk, ih]

theorem findVariant_some {α : Type} {name : String} {vars : List (String × α)}
    (h : name ∈ vars.map (·.1)) (k : Nat) :
    ∃ i a, findVariant name vars k = some (i, a) ∧ (name, a) ∈ vars := by
  induction vars generalizing k with
  | nil => simp at h
  | cons x xs ih =>
    obtain ⟨n, a⟩ := x
    rw [findVariant]
    split
    · rename_i hn; subst hn; exact ⟨k, a, rfl, by simp⟩
    · rename_i hn
      simp only [List.map_cons, List.mem_cons] at h
      obtain ⟨i, b, h1, h2⟩ := ih (h.resolve_left fun h => hn h.symm) (k + 1)
      exact ⟨i, b, h1, by simp [h2]⟩

/-- What a decoder takes off the front of its input, `from_bytes` returns for those bytes. -/
theorem Reads.returned {env : Env} {n : Nat} {t : Ty} {bs : Bytes} {v : Val} (h : Reads (deTy env n t) bs v) :
    fromBytes env n t bs = .ok v := by
  have h1 := h []
  rw [List.append_nil] at h1
  simp [fromBytes, from_bytes, h1]

theorem Safe.deDef {env : Env} {text : Bool} {field : Ty → De Val}
    (hb : ∀ t, Built (field t)) (hf : ∀ t, t.Ok env text → Safe text (field t))
    (hr : ∀ t input v rest, field t input = .ok (v, rest) → ∃ n b, fromBytes env n t b = .ok v)
    (name : String) (d : Def)
    (hd : d.Ok env text) : Safe text (deDef field name d) := by
  obtain ⟨hts, huser⟩ := hd
  rw [tysOk_iff] at hts
  have hm : ∀ (ts : List Ty), (∀ t ∈ ts, t ∈ d.types) → ∀ x ∈ ts.map field, Safe text x := by
    intro ts h x hx
    obtain ⟨t, ht, rfl⟩ := List.mem_map.mp hx
    exact hf t (hts t (h t ht))
  have hm2 : ∀ (fs : List (String × Ty)), (∀ t ∈ fs.map (·.2), t ∈ d.types) →
      ∀ x ∈ fs.map (fun f => field f.2), Safe text x := by
    intro fs h x hx
    obtain ⟨t, ht, rfl⟩ := List.mem_map.mp hx
    exact hf t.2 (hts t.2 (h t.2 (List.mem_map_of_mem (f := (·.2)) ht)))
  cases d with
  | unitStruct => exact .pure _
  | newtypeStruct t => exact .bind (hf t (hts t (by simp [Def.types]))) fun _ => .pure _
  | tupleStruct ts =>
    simp only [Xdr.deDef, deserialize_tuple_struct]
    rw [visitEach_eq _ _ _ _ (by simp)]
    exact .bind (.readAll (hm ts (by simp [Def.types]))) fun _ => .pure _
  | struct fs =>
    simp only [Xdr.deDef, deserialize_struct]
    rw [visitEach_eq _ _ _ _ (by simp)]
    exact .bind (.readAll (hm2 fs (by simp [Def.types]))) fun _ => .pure _
  | enum vars =>
    simp only [Xdr.deDef, deserialize_enum]
    have hseed : Safe text (Enum_variant_seed (variantIndex vars.length)) := by
      refine .bind .i32 fun i => ?_
      split
      · exact .convert
      · unfold variantIndex
        split
        · exact .pure _
        · exact .custom _
    refine .bindP (fun i => i < vars.length) hseed ?_ (built_deDef hb name (.enum vars)).gen fun i hi => ?_
    · intro input a rest h
      obtain ⟨x, mid, _, h2⟩ := M.bind_eq_ok.mp h
      split at h2
      · simp at h2
      · unfold variantIndex at h2
        split at h2
        · simp only [M.pure_run, Res.ok.injEq, Prod.mk.injEq] at h2
          omega
        · simp at h2
    · have hm' : ∀ x ts, vars[i]? = some x → x.2.types = ts → ∀ t ∈ ts, t ∈ (Def.enum vars).types := by
        intro x ts hx hts t ht
        subst hts
        simp only [Def.types, List.mem_flatMap]
        refine ⟨x, List.mem_of_getElem? hx, ?_⟩
        exact ht
      split
      · rename_i hv
        simp only [List.getElem?_eq_none_iff] at hv
        omega
      · exact .pure _
      · rename_i hv
        exact .bind (hf _ (hts _ (hm' _ _ hv rfl _ (by simp [Shape.types])))) fun _ => .pure _
      · rename_i ts hv
        simp only [Enum_tuple_variant, deserialize_tuple]
        rw [visitEach_eq _ _ _ _ (by simp)]
        exact .bind (Safe.readAll (hm ts (hm' _ _ hv rfl))) fun _ => .pure _
      · rename_i fs hv
        simp only [Enum_struct_variant, deserialize_tuple]
        rw [visitEach_eq _ _ _ _ (by simp)]
        exact .bind (Safe.readAll (hm2 fs (hm' _ _ hv rfl))) fun _ => .pure _
  | indexer vars impl =>
    simp only [Xdr.deDef, deserialize_tuple, visitIndexer]
    simp only [] at huser
    have e : ∀ d : De Int32, Seq.next_element { count := 10 } d =
        (d >>= fun v => Pure.pure (some v, { count := 9 })) := fun _ => rfl
    rw [e, M.bind_assoc']
    refine .bind (.bind .i32 fun _ => .pure _) fun i => ?_
    rw [M.pure_bind']
    simp only []
    rcases huser.1 i with ⟨n, h1, h2⟩ | ⟨er, h1⟩
    · rw [h1]
      obtain ⟨j, a, h3, h4⟩ := findVariant_some h2 0
      simp only [h3]
      cases a with
      | none => exact .pure _
      | some ts =>
        simp only []
        have h9 := huser.2 _ h4
        rw [visitUnwrap_eq _ _ (by simpa using h9)]
        refine .bind (.readAll (hm ts fun t ht => ?_)) fun _ => .pure _
        simp only [Def.types, List.mem_flatMap]
        exact ⟨_, h4, ht⟩
    · rw [h1]; exact .custom _
  | union disc vars impl =>
    simp only [Xdr.deDef, deserialize_tuple, visitUnion]
    simp only [] at huser
    have e : ∀ d : De Val, Seq.next_element { count := 10 } d =
        (d >>= fun v => Pure.pure (some v, { count := 9 })) := fun _ => rfl
    rw [e, M.bind_assoc']
    have hg := (built_deDef hb name (.union disc vars impl)).gen
    simp only [Xdr.deDef, deserialize_tuple, visitUnion] at hg
    rw [e, M.bind_assoc'] at hg
    refine .bindP (fun i => ∃ n b, fromBytes env n disc b = .ok i) (hf disc (hts _ (by simp [Def.types])))
      (fun input a rest h => hr disc input a rest h) hg fun i hi => ?_
    rw [M.pure_bind']
    simp only []
    obtain ⟨n, b, hi⟩ := hi
    rcases huser.1 n b i hi with ⟨n, h1, h2⟩ | ⟨er, h1⟩
    · rw [h1]
      obtain ⟨j, a, h3, h4⟩ := findVariant_some h2 0
      simp only [h3]
      match a, h4 with
      | none, _ => exact .pure _
      | some [], _ => exact .pure _
      | some (d :: ts), h4 =>
        simp only []
        have h9 := huser.2 _ h4
        rw [visitUnwrap_eq _ _ (by simpa using h9)]
        refine .bind (.readAll (hm ts fun t ht => ?_)) fun _ => .pure _
        simp only [Def.types, List.mem_cons, List.mem_flatMap]
        exact .inr ⟨_, h4, by simp [ht]⟩
    · rw [h1]; exact .custom _

theorem safe_deTy {env : Env} {text : Bool} (henv : EnvOk env text) :
    ∀ (n : Nat) (t : Ty), t.Ok env text → Safe text (deTy env n t)
  | 0, _, _ => .depth
  | n + 1, t, ht => by
    have ih := safe_deTy henv n
    cases t with
    | bool => exact .bind .u32 fun _ => .pure _
    | i8 => exact .bind .i32 fun _ => .pure _
    | i16 => exact .bind .i32 fun _ => .pure _
    | i32 => exact .bind .i32 fun _ => .pure _
    | i64 => exact .bind .i64 fun _ => .pure _
    | u8 => exact .bind .u32 fun _ => .pure _
    | u16 => exact .bind .u32 fun _ => .pure _
    | u32 => exact .bind .u32 fun _ => .pure _
    | u64 => exact .bind .u64 fun _ => .pure _
    | f32 => exact .bind .u32 fun _ => .pure _
    | f64 => exact .bind .u64 fun _ => .pure _
    | char => exact .bind .char fun _ => .pure _
    | string => simp only [Ty.Ok] at ht; subst ht; exact .bind .string fun _ => .pure _
    | bytes => simp only [Ty.Ok] at ht; subst ht; exact .bind .bytes fun _ => .pure _
    | option t =>
      simp only [Ty.Ok] at ht
      simp only [deTy, deserialize_option]
      refine .bind .u32 fun v => ?_
      split
      · exact .pure _
      · exact .bind (ih t ht) fun _ => .pure _
    | unit => exact .pure _
    | vec t =>
      simp only [Ty.Ok] at ht
      exact .bind (.bind .u32 fun _ => .visitVec (ih t ht) _ _) fun _ => .pure _
    | array len t =>
      simp only [Ty.Ok] at ht
      simp only [deTy, deserialize_tuple]
      rw [visitEach_eq _ _ _ _ (by simp)]
      refine .bind (.readAll fun d hd => ?_) fun _ => .pure _
      rw [List.eq_of_mem_replicate hd]
      exact ih t ht
    | tuple ts =>
      simp only [Ty.Ok, tysOk_iff] at ht
      rw [deTy_tuple]
      refine .bind (.readAll fun d hd => ?_) fun _ => .pure _
      obtain ⟨t, h, rfl⟩ := List.mem_map.mp hd
      exact ih t (ht t h)
    | map k v =>
      simp only [Ty.Ok] at ht
      exact .bind (.bind .u32 fun _ => .visitMap (ih k ht.1) (ih v ht.2) _ _ _) fun _ => .pure _
    | opaqueFixed len => exact .bind (.fixed len) fun _ => .pure _
    | opaqueVar => exact .bind .variable fun _ => .pure _
    | signed32 _ impl =>
      simp only [Ty.Ok] at ht
      simp only [deTy, signed32_deserialize]
      refine .bind (.bind .i32 fun _ => .pure _) fun i => ?_
      rcases ht i with ⟨v, h⟩ | ⟨e, h⟩
      · rw [h]; exact .pure _
      · rw [h]; exact .custom _
    | named name =>
      simp only [Ty.Ok] at ht
      unfold deTy
      dsimp only
      split
      · rename_i h; simp [h] at ht
      · rename_i d h
        exact .deDef (built_deTy env n) ih (fun t input v rest h' => by
          obtain ⟨used, -, -, h3⟩ := (built_deTy env n t).gen.local h'
          exact ⟨n, used, h3.returned⟩) name d (henv name d h)

end Xdr
