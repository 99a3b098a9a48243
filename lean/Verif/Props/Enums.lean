import Verif.Props.Codec
import Verif.Proofs.Product
import Verif.Spec.Classes
/-! # C16 and C23 to C25: enums

Writing and reading a variant is compared with writing and reading the tuple of its fields. -/

namespace Xdr

/-- The variant number `i` with the members of a tuple as fields. -/
def asVariant (i : Nat) : Val → Val
  | .seq vs => .variant i vs
  | v => v

/-- `bs` in front of the output, if there is one. -/
def prefixed (bs : Bytes) : Res Bytes → Res Bytes
  | .ok b => .ok (bs ++ b)
  | r => r

theorem cat_prefixed (bs : Bytes) (r : Res Bytes) : (Res.ok bs).cat r = prefixed bs r := by
  cases r <;> rfl

theorem cat_prefixed_nil (bs : Bytes) : prefixed bs (.ok []) = .ok bs := by simp [prefixed]

theorem indexBytes_eq {i : Nat} (h : i < 2 ^ 32) :
    indexBytes (UInt32.ofNat i) = if i < 2 ^ 31 then .ok (Rfc.beBytes 4 i) else .err .convert := by
  unfold indexBytes
  rw [UInt32.toNat_ofNat', Nat.mod_eq_of_lt h, beBytes4]

/-! ## C16: derived enums -/

/-- C16, writing: the variant's position, then its fields; a position of 2^31 or more is `Convert`. -/
theorem C16_write (env : Env) (name : String) (vars : List (String × Shape))
    (henv : env name = some (.enum vars)) (i : Nat) (vn : String) (sh : Shape) (vs : List Val)
    (hi : vars[i]? = some (vn, sh)) (hty : HasTy env (.tuple sh.types) (.seq vs))
    (h32 : i < 2 ^ 32) :
    toBytes env (.named name) (.variant i vs) =
      if i < 2 ^ 31 then prefixed (Rfc.beBytes 4 i) (toBytes env (.tuple sh.types) (.seq vs))
      else .err .convert := by
  unfold HasTy at hty
  simp only [present, Option.isSome_map] at hty
  cases hs : presentEach env sh.types vs with
  | none => simp [hs] at hty
  | some ss =>
    have hp := presentEach_sound' env sh.types vs (fun v _ t s h => present_sound env t v s h) ss hs
    have hr : toBytes env (.tuple sh.types) (.seq vs) = bytesList ss := by
      simp only [toBytes, present, hs, Option.map_some]
      rw [to_bytes_node]; rfl
    rw [hr]
    have key : toBytes env (.named name) (.variant i vs) =
        (indexBytes (UInt32.ofNat i)).cat (bytesList ss) := by
      cases sh with
      | unit =>
        cases hp
        simp only [toBytes, present, henv, hi]
        rw [to_bytes_node, nodeBytes, bytesList_nil, Res.cat_nil]
      | newtype t =>
        cases hp with
        | cons h1 h2 =>
          cases h2
          simp only [toBytes, present, henv, hi, h1.complete, Option.map_some]
          rw [to_bytes_node, nodeBytes, bytesList_cons, bytesList_nil, Res.cat_nil]
      | tuple ts =>
        simp only [Shape.types] at hs
        simp only [toBytes, present, henv, hi, hs, Option.map_some]
        rw [to_bytes_node, nodeBytes]
      | struct fs =>
        simp only [Shape.types] at hs hp
        simp only [toBytes, present, henv, hi, hs, Option.map_some]
        rw [to_bytes_node, nodeBytes, bytesFields_zip _ _ (by simpa using hp.length.2)]
    rw [key, indexBytes_eq h32]
    split
    · exact cat_prefixed _ _
    · rfl

theorem asVariant_tuple (env : Env) (n i : Nat) (ts : List Ty) :
    (asVariant i <$> deTy env (n + 1) (.tuple ts)) =
      (readAll (ts.map (deTy env n)) >>= fun vs => pure (.variant i vs)) := by
  have : ∀ m : De Val, asVariant i <$> m = m >>= fun v => pure (asVariant i v) := fun _ => rfl
  rw [this, deTy_tuple, M.bind_assoc']
  rfl

theorem read_i32_word (d : Nat) (rest : Bytes) :
    read_i32 (Rfc.beBytes 4 d ++ rest) = .ok ((UInt32.ofNat d).toInt32, rest) := by
  rw [beBytes4]
  exact reads_i32 (UInt32.ofNat d).toInt32 rest

theorem toInt32_neg {d : Nat} (hd : d < 2 ^ 32) :
    (UInt32.ofNat d).toInt32.toInt = if d < 2 ^ 31 then (d : Int) else (d : Int) - 2 ^ 32 := by
  have e : (UInt32.ofNat d).toInt32 = Int32.ofNat d := by
    apply Int32.toBitVec_inj.mp
    simp [Int32.ofNat, UInt32.toInt32, UInt32.ofNat]
  rw [e]
  split
  · rw [Int32.toInt_ofNat_of_lt (by omega)]
  · rw [Int32.toInt_ofNat', Int.bmod_def]
    have : (d : Int) % 4294967296 = d := by omega
    simp only [Int32.size]
    omega

theorem variant_seed_word (d : Nat) (hd : d < 2 ^ 32) (rest : Bytes) {α : Type} (f : Nat → De α) :
    Enum_variant_seed f (Rfc.beBytes 4 d ++ rest) =
      if d < 2 ^ 31 then f d rest else .err .convert := by
  have h0 := read_i32_word d rest
  have h1 := toInt32_neg hd
  generalize (UInt32.ofNat d).toInt32 = x at h0 h1
  generalize Rfc.beBytes 4 d ++ rest = input at h0 ⊢
  unfold Enum_variant_seed
  rw [M.bind_ok h0, h1]
  by_cases h : d < 2 ^ 31
  · rw [if_pos h, if_pos h, if_neg (by omega), Int.toNat_natCast]
  · rw [if_neg h, if_neg h, if_pos (by omega)]; rfl

theorem enum_head (env : Env) (n : Nat) (name : String) (vars : List (String × Shape))
    (henv : env name = some (.enum vars)) (d : Nat) (vn : String) (sh : Shape) (input rest : Bytes)
    (hseed : Enum_variant_seed (variantIndex vars.length) input = .ok (d, rest))
    (hd : vars[d]? = some (vn, sh)) :
    deTy env (n + 1) (.named name) input =
      (asVariant d <$> deTy env (n + 1) (.tuple sh.types)) rest := by
  rw [asVariant_tuple]
  simp only [deTy, henv, deDef, deserialize_enum]
  rw [M.bind_ok hseed]
  simp only [hd]
  cases sh with
  | unit => rfl
  | newtype t =>
    simp only [Shape.types, List.map_cons, List.map_nil, readAll, M.bind_assoc', M.pure_bind',
      Enum_newtype_variant]
  | tuple ts =>
    simp only [Shape.types, Enum_tuple_variant, deserialize_tuple]
    rw [visitEach_eq _ _ _ _ (by simp)]
  | struct fs =>
    simp only [Shape.types, Enum_struct_variant, deserialize_tuple, List.map_map]
    rw [visitEach_eq _ _ _ _ (by simp)]
    rfl

theorem enum_err (env : Env) (n : Nat) (name : String) (vars : List (String × Shape))
    (henv : env name = some (.enum vars)) (input : Bytes) (e : Error)
    (hseed : Enum_variant_seed (variantIndex vars.length) input = .err e) :
    deTy env (n + 1) (.named name) input = .err e := by
  simp only [deTy, henv, deDef, deserialize_enum]
  rw [M.bind_err hseed]

/-- C16, reading, for every 32-bit discriminant. -/
theorem C16_read (env : Env) (n : Nat) (name : String) (vars : List (String × Shape))
    (henv : env name = some (.enum vars)) (d : Nat) (hd : d < 2 ^ 32) (rest : Bytes) :
    (2 ^ 31 ≤ d →
      deTy env (n + 1) (.named name) (Rfc.beBytes 4 d ++ rest) = .err .convert) ∧
    (d < 2 ^ 31 → vars.length ≤ d →
      ∃ msg, deTy env (n + 1) (.named name) (Rfc.beBytes 4 d ++ rest) = .err (.custom msg)) ∧
    (∀ vn sh, d < 2 ^ 31 → vars[d]? = some (vn, sh) →
      deTy env (n + 1) (.named name) (Rfc.beBytes 4 d ++ rest) =
        (asVariant d <$> deTy env (n + 1) (.tuple sh.types)) rest) := by
  have hseed := variant_seed_word d hd rest (variantIndex vars.length)
  generalize Rfc.beBytes 4 d ++ rest = input at hseed ⊢
  refine ⟨fun h => ?_, fun h1 h2 => ?_, fun vn sh h1 h2 => ?_⟩
  · rw [if_neg (by omega)] at hseed
    exact enum_err env n name vars henv input _ hseed
  · rw [if_pos h1, variantIndex, if_neg (by omega)] at hseed
    exact ⟨_, enum_err env n name vars henv input _ hseed⟩
  · have hlt : d < vars.length := by rw [List.getElem?_eq_some_iff] at h2; exact h2.1
    rw [if_pos h1, variantIndex, if_pos hlt] at hseed
    exact enum_head env n name vars henv d vn sh input rest hseed h2

example : toBytes Sample.env (.named "Color") (.variant 2 [.u8 7, .i64 (-1)]) =
    prefixed [0, 0, 0, 2] (toBytes Sample.env (.tuple [.u8, .i64]) (.seq [.u8 7, .i64 (-1)])) :=
  C16_write _ _ _ rfl 2 "Mix" (.tuple [.u8, .i64]) _ rfl (by unfold HasTy; decide +kernel) (by decide)

example : ∃ msg, deTy Sample.env 3 (.named "Color") ([0, 0, 0, 3] ++ [1]) = .err (.custom msg) :=
  (C16_read Sample.env 2 "Color" _ rfl 3 (by decide) [1]).2.1 (by decide) (by decide)

/-! ## C23: `XdrIndexer` -/

/-- Field types of a variant of an `XdrIndexer` or `XdrUnion` enum. -/
def fieldTypes (f : Option (List Ty)) : List Ty := f.getD []

/-- C23, writing: `index()` as a signed 32-bit integer, then the fields, like a tuple. -/
theorem C23_write (env : Env) (name : String) (vars : List (String × Option (List Ty)))
    (impl : IndexerImpl) (henv : env name = some (.indexer vars impl)) (i : Nat) (vn : String)
    (fields : Option (List Ty)) (vs : List Val) (idx : Int32)
    (hi : vars[i]? = some (vn, fields)) (hty : HasTy env (.tuple (fieldTypes fields)) (.seq vs))
    (hidx : impl.index i vs = .ok idx) :
    toBytes env (.named name) (.variant i vs) =
      toBytes env (.tuple (.i32 :: fieldTypes fields)) (.seq (.i32 idx :: vs)) := by
  unfold HasTy at hty
  simp only [present, Option.isSome_map] at hty
  cases hs : presentEach env (fieldTypes fields) vs with
  | none => simp [hs] at hty
  | some ss =>
    simp only [toBytes, present, presentEach, henv, hi, hs, Option.map_some]
    cases fields with
    | none =>
      have hp := presentEach_sound' env _ vs (fun v _ t s h => present_sound env t v s h) ss hs
      cases hp
      simp only [List.isEmpty_nil, if_true, hidx, SVal.ofUser]
      rw [to_bytes_node, to_bytes_node]
      rfl
    | some ts =>
      simp only [fieldTypes, Option.getD_some] at hs
      simp only [hs, Option.map_some, hidx, SVal.ofUser]
      rw [to_bytes_node, to_bytes_node]
      rfl

theorem signed_word {idx : Int32} {bs : Bytes} (h : Rfc.signed 4 idx.toInt = some bs) (rest : Bytes) :
    read_i32 (bs ++ rest) = .ok (idx, rest) := by
  rw [signed4, Option.some.injEq] at h
  subst h
  exact reads_i32 idx rest

theorem indexer_head (env : Env) (n : Nat) (name : String)
    (vars : List (String × Option (List Ty))) (impl : IndexerImpl)
    (henv : env name = some (.indexer vars impl)) (idx : Int32) (bs rest : Bytes)
    (hbs : Rfc.signed 4 idx.toInt = some bs) :
    deTy env (n + 1) (.named name) (bs ++ rest) =
      (match impl.name_by_index idx with
      | .err _ => M.fail (.custom s!"Can not convert from {idx.toInt}")
      | .panic p => M.panic p
      | .depth => M.depth
      | .ok name =>
        match findVariant name vars 0 with
        | none => M.panic .unimplemented
        | some (i, none) => pure (.variant i [])
        | some (i, some ts) => do
          let vs ← visitUnwrap (ts.map (deTy env n)) { count := 9 }
          pure (.variant i vs) : De Val) rest := by
  simp only [deTy, henv, deDef, deserialize_tuple, visitIndexer]
  have h0 := signed_word hbs rest
  generalize bs ++ rest = input at h0 ⊢
  have h1 : deserialize_i32 (pure : Int32 → De Int32) input = .ok (idx, rest) := by
    simp only [deserialize_i32]
    rw [M.bind_ok h0]; rfl
  have h2 : Seq.next_element { count := 10 } (deserialize_i32 (pure : Int32 → De Int32)) input =
      .ok ((some idx, { count := 9 }), rest) := by
    rw [Seq.next_succ, M.bind_ok h1]; rfl
  rw [M.bind_ok h2]
  rfl

/-- C23, reading: the index selects the (first) variant with the name `name_by_index` gives, whose
fields are read like a tuple. -/
theorem C23_read (env : Env) (n : Nat) (name : String) (vars : List (String × Option (List Ty)))
    (impl : IndexerImpl) (henv : env name = some (.indexer vars impl))
    (idx : Int32) (bs rest : Bytes) (hbs : Rfc.signed 4 idx.toInt = some bs)
    (vn : String) (hname : impl.name_by_index idx = .ok vn) (i : Nat) (fields : Option (List Ty))
    (hi : vars[i]? = some (vn, fields)) (hfirst : ∀ j < i, ∀ x, vars[j]? = some x → x.1 ≠ vn)
    (h9 : (fieldTypes fields).length ≤ 9) :
    deTy env (n + 1) (.named name) (bs ++ rest) =
      (asVariant i <$> deTy env (n + 1) (.tuple (fieldTypes fields))) rest := by
  rw [indexer_head env n name vars impl henv idx bs rest hbs, asVariant_tuple]
  simp only [hname, findVariant_of hi hfirst 0, Nat.zero_add]
  cases fields with
  | none => rfl
  | some ts =>
    simp only [fieldTypes, Option.getD_some] at h9 ⊢
    rw [visitUnwrap_eq _ _ (by simpa using h9)]

/-- C23: an index that `name_by_index` rejects is an error naming the index. -/
theorem C23_read_unknown (env : Env) (n : Nat) (name : String)
    (vars : List (String × Option (List Ty))) (impl : IndexerImpl)
    (henv : env name = some (.indexer vars impl)) (idx : Int32) (bs rest : Bytes)
    (hbs : Rfc.signed 4 idx.toInt = some bs) (e : Error) (hname : impl.name_by_index idx = .err e) :
    deTy env (n + 1) (.named name) (bs ++ rest) =
      .err (.custom s!"Can not convert from {idx.toInt}") := by
  rw [indexer_head env n name vars impl henv idx bs rest hbs, hname]
  rfl

example : deTy Sample.env 2 (.named "Ix") ([0, 0, 0, 8] ++ [1]) =
    .err (.custom "Can not convert from 8") :=
  C23_read_unknown Sample.env 1 "Ix" _ _ rfl 8 [0, 0, 0, 8] [1] (by decide) .convert (by decide)

example : deTy Sample.env 2 (.named "Ix") ([255, 255, 255, 253] ++ [1]) =
    (asVariant 0 <$> deTy Sample.env 2 (.tuple [])) [1] :=
  C23_read Sample.env 1 "Ix" _ _ rfl (-3) [255, 255, 255, 253] [1] (by decide) "A" (by decide) 0 none
    rfl (by simp) (by decide)

/-! ## C24: `XdrUnion` -/

/-- C24, writing: the fields in order, like a tuple; the first one is the discriminant. -/
theorem C24_write (env : Env) (name : String) (disc : Ty) (vars : List (String × Option (List Ty)))
    (impl : UnionImpl) (henv : env name = some (.union disc vars impl)) (i : Nat) (vn : String)
    (ts : List Ty) (vs : List Val) (hi : vars[i]? = some (vn, some ts))
    (hty : HasTy env (.tuple ts) (.seq vs)) :
    toBytes env (.named name) (.variant i vs) = toBytes env (.tuple ts) (.seq vs) := by
  unfold HasTy at hty
  simp only [present, Option.isSome_map] at hty
  cases hs : presentEach env ts vs with
  | none => simp [hs] at hty
  | some ss =>
    simp only [toBytes, present, henv, hi, hs, Option.map_some]
    rw [to_bytes_node, to_bytes_node]
    rfl

theorem union_head (env : Env) (n : Nat) (name : String) (disc : Ty)
    (vars : List (String × Option (List Ty))) (impl : UnionImpl)
    (henv : env name = some (.union disc vars impl)) (input rest : Bytes) (v : Val)
    (hv : deTy env n disc input = .ok (v, rest)) :
    deTy env (n + 1) (.named name) input =
      (match impl.name_by_value v with
      | .err _ => M.fail (.custom "Can not convert from value")
      | .panic p => M.panic p
      | .depth => M.depth
      | .ok name =>
        match findVariant name vars 0 with
        | none => M.panic .unimplemented
        | some (i, none) => pure (.variant i [])
        | some (i, some []) => pure (.variant i [])
        | some (i, some (_ :: ts)) => do
          let vs ← visitUnwrap (ts.map (deTy env n)) { count := 9 }
          pure (.variant i (v :: vs)) : De Val) rest := by
  simp only [deTy, henv, deDef, deserialize_tuple, visitUnion]
  have h2 : Seq.next_element { count := 10 } (deTy env n disc) input =
      .ok ((some v, { count := 9 }), rest) := by
    rw [Seq.next_succ, M.bind_ok hv]; rfl
  rw [M.bind_ok h2]
  rfl

/-- The variant number `i` with `v` and then the members of a tuple as fields. -/
def asVariantWith (i : Nat) (v : Val) : Val → Val
  | .seq vs => .variant i (v :: vs)
  | w => w

/-- C24, reading: the discriminant selects the (first) variant with the name `name_by_value` gives
and becomes its first field; the other fields are read like a tuple. -/
theorem C24_read (env : Env) (n : Nat) (name : String) (disc : Ty)
    (vars : List (String × Option (List Ty))) (impl : UnionImpl)
    (henv : env name = some (.union disc vars impl)) (input rest : Bytes) (v : Val)
    (hv : deTy env n disc input = .ok (v, rest))
    (vn : String) (hname : impl.name_by_value v = .ok vn) (i : Nat) (ts : List Ty)
    (hi : vars[i]? = some (vn, some (disc :: ts)))
    (hfirst : ∀ j < i, ∀ x, vars[j]? = some x → x.1 ≠ vn) (h9 : ts.length ≤ 9) :
    deTy env (n + 1) (.named name) input =
      (asVariantWith i v <$> deTy env (n + 1) (.tuple ts)) rest := by
  have hm : ∀ m : De Val, asVariantWith i v <$> m = m >>= fun w => pure (asVariantWith i v w) :=
    fun _ => rfl
  rw [union_head env n name disc vars impl henv input rest v hv, hm, deTy_tuple, M.bind_assoc']
  simp only [hname, findVariant_of hi hfirst 0, Nat.zero_add]
  rw [visitUnwrap_eq _ _ (by simpa using h9)]
  rfl

/-- C24: what reading the discriminant does not accept, the union does not accept, and a
discriminant that `name_by_value` rejects is an error. -/
theorem C24_read_rejected (env : Env) (n : Nat) (name : String) (disc : Ty)
    (vars : List (String × Option (List Ty))) (impl : UnionImpl)
    (henv : env name = some (.union disc vars impl)) (input : Bytes) :
    (∀ e, deTy env n disc input = .err e → deTy env (n + 1) (.named name) input = .err e) ∧
    (∀ v rest e, deTy env n disc input = .ok (v, rest) → impl.name_by_value v = .err e →
      ∃ msg, deTy env (n + 1) (.named name) input = .err (.custom msg)) := by
  constructor
  · intro e he
    simp only [deTy, henv, deDef, deserialize_tuple, visitUnion]
    exact M.bind_err (by rw [Seq.next_succ, M.bind_err he])
  · intro v rest e hv hn
    rw [union_head env n name disc vars impl henv input rest v hv, hn]
    exact ⟨_, rfl⟩

example : deTy Sample.env 3 (.named "Un") ([0, 0, 0, 5] ++ [9]) =
    (asVariantWith 1 (.i32 5) <$> deTy Sample.env 3 (.tuple [])) [9] :=
  C24_read Sample.env 2 "Un" .i32 _ _ rfl _ [9] (.i32 5) (by rfl) "Other" rfl 1 [] rfl
    (by intro j hj x hx; obtain rfl : j = 0 := by omega
        simp at hx; subst hx; decide) (by simp)

/-! ## C25: many fields -/

/-- The full statement of C25: what can be written can be read back. -/
def DerivedReadBack (env : Env) (name : String) : Prop :=
  ∀ i vs bs n, HasTy env (.named name) (.variant i vs) →
    toBytes env (.named name) (.variant i vs) = .ok bs → (Val.variant i vs).depth < n →
    fromBytes env n (.named name) bs = .ok (.variant i vs)

/-- C25 is false of the code: every value of an `XdrIndexer` variant with ten or more fields, written
successfully, makes the reader panic. -/
theorem C25_indexer_panics (env : Env) (name : String) (vars : List (String × Option (List Ty)))
    (impl : IndexerImpl) (henv : env name = some (.indexer vars impl)) (i : Nat) (vn : String)
    (ts : List Ty) (vs : List Val) (idx : Int32) (bs : Bytes) (n : Nat)
    (hi : vars[i]? = some (vn, some ts)) (hfirst : ∀ j < i, ∀ x, vars[j]? = some x → x.1 ≠ vn)
    (hidx : impl.index i vs = .ok idx) (hname : impl.name_by_index idx = .ok vn)
    (h10 : 10 ≤ ts.length) (hfits : FitsEach env ts vs) (hn : (Val.variant i vs).depth < n)
    (h : toBytes env (.named name) (.variant i vs) = .ok bs) :
    fromBytes env n (.named name) bs = .panic .unwrapNone := by
  obtain ⟨n, rfl, hd⟩ := depth_pos hn
  simp only [Val.depth] at hd
  cases hs : presentEach env ts vs with
  | none => simp [toBytes, present, henv, hi, hs] at h
  | some ss =>
    have hp := presentEach_sound' env ts vs (fun v _ t s h => present_sound env t v s h) ss hs
    simp only [toBytes, present, henv, hi, hs, Option.map_some, hidx, SVal.ofUser] at h
    rw [to_bytes_node, nodeBytes, bytesList_cons, to_bytes_node, nodeBytes] at h
    obtain ⟨b1, b2, h1, h2, rfl⟩ := Res.cat_eq_ok h
    rw [Res.ok.injEq] at h1; subst h1
    have hr := roundtripEach_aux hp hfits (n := n) (by omega) h2
    have hsh := visitUnwrap_short hr 9 (by rw [List.length_map]; exact h10) []
    rw [List.append_nil] at hsh
    unfold fromBytes from_bytes
    rw [indexer_head env n name vars impl henv idx _ b2 (signed4 idx)]
    simp only [hname, findVariant_of hi hfirst 0, Nat.zero_add]
    rw [M.bind_panic hsh]

/-- The same for `XdrUnion` variants with eleven or more fields. -/
theorem C25_union_panics (env : Env) (name : String) (disc : Ty)
    (vars : List (String × Option (List Ty)))
    (impl : UnionImpl) (henv : env name = some (.union disc vars impl)) (i : Nat) (vn : String)
    (ts : List Ty) (v : Val) (vs : List Val) (bs : Bytes) (n : Nat)
    (hi : vars[i]? = some (vn, some (disc :: ts)))
    (hfirst : ∀ j < i, ∀ x, vars[j]? = some x → x.1 ≠ vn)
    (hname : impl.name_by_value v = .ok vn)
    (h10 : 10 ≤ ts.length) (hfits : FitsEach env (disc :: ts) (v :: vs))
    (hn : (Val.variant i (v :: vs)).depth < n)
    (h : toBytes env (.named name) (.variant i (v :: vs)) = .ok bs) :
    fromBytes env n (.named name) bs = .panic .unwrapNone := by
  obtain ⟨n, rfl, hd⟩ := depth_pos hn
  simp only [Val.depth] at hd
  cases hs : presentEach env (disc :: ts) (v :: vs) with
  | none => simp [toBytes, present, henv, hi, hs] at h
  | some ss =>
    have hp := presentEach_sound' env _ _ (fun v _ t s h => present_sound env t v s h) ss hs
    simp only [toBytes, present, henv, hi, hs, Option.map_some] at h
    rw [to_bytes_node, nodeBytes] at h
    have hr := roundtripEach_aux hp hfits (n := n) (by omega) h
    rw [List.map_cons] at hr
    cases hr with
    | cons h1 h2 =>
      have hsh := visitUnwrap_short h2 9 (by rw [List.length_map]; exact h10) []
      rw [List.append_nil] at hsh
      unfold fromBytes from_bytes
      rw [union_head env n name disc vars impl henv _ _ v (h1 _)]
      simp only [hname, findVariant_of hi hfirst 0, Nat.zero_add]
      rw [M.bind_panic hsh]

/-- A program with one such enum of each kind. -/
def Sample.wide : Env := fun name =>
  if name = "Ix" then
    some (.indexer [("A", some (List.replicate 10 .u32))]
      { index := fun _ _ => .ok 4, name_by_index := fun _ => .ok "A" })
  else if name = "Un" then
    some (.union .i32 [("A", some (.i32 :: List.replicate 10 .u32))]
      { name_by_value := fun _ => .ok "A" })
  else none

theorem C25_violated : ¬ DerivedReadBack Sample.wide "Ix" ∧ ¬ DerivedReadBack Sample.wide "Un" := by
  constructor
  · intro h
    have e : toBytes Sample.wide (.named "Ix") (.variant 0 (List.replicate 10 (.u32 7))) =
        .ok ([0, 0, 0, 4] ++ (List.replicate 10 [0, 0, 0, 7]).flatten) := by decide +kernel
    have h1 := h 0 (List.replicate 10 (.u32 7)) _ 2 (by unfold HasTy; decide +kernel) e (by decide)
    rw [C25_indexer_panics Sample.wide "Ix" _ _ rfl 0 "A" (List.replicate 10 .u32)
      (List.replicate 10 (.u32 7)) 4 _ 2 rfl (by simp) rfl rfl (by decide)
      (by simp [List.replicate, FitsEach, Fits]) (by decide) e] at h1
    simp at h1
  · intro h
    have e : toBytes Sample.wide (.named "Un") (.variant 0 (.i32 4 :: List.replicate 10 (.u32 7))) =
        .ok ([0, 0, 0, 4] ++ (List.replicate 10 [0, 0, 0, 7]).flatten) := by decide +kernel
    have h1 := h 0 (.i32 4 :: List.replicate 10 (.u32 7)) _ 2 (by unfold HasTy; decide +kernel) e
      (by decide)
    rw [C25_union_panics Sample.wide "Un" .i32 _ _ rfl 0 "A" (List.replicate 10 .u32) (.i32 4)
      (List.replicate 10 (.u32 7)) _ 2 rfl (by simp) rfl (by decide)
      (by simp [List.replicate, FitsEach, Fits]) (by decide) e] at h1
    simp at h1

/-- What holds of C25: derived enums whose values satisfy `Fits`, so at most nine fields after the
index or discriminant, are read back. Missing: variants with more fields. -/
theorem C25_read_back_partial (env : Env) (name : String) (i : Nat) (vs : List Val) (bs : Bytes)
    (n : Nat) (hfits : Fits env (.named name) (.variant i vs))
    (h : toBytes env (.named name) (.variant i vs) = .ok bs) (hn : (Val.variant i vs).depth < n) :
    fromBytes env n (.named name) bs = .ok (.variant i vs) :=
  C01_roundtrip env (.named name) (.variant i vs) bs n hfits hn h

/-- C25, exactly: whether a written value of an `XdrIndexer` variant is read back depends on the number of its
fields alone. Nine is the most. -/
theorem C25_indexer_exact (env : Env) (name : String) (vars : List (String × Option (List Ty)))
    (impl : IndexerImpl) (henv : env name = some (.indexer vars impl)) (i : Nat) (vn : String)
    (ts : List Ty) (vs : List Val) (idx : Int32) (bs : Bytes) (n : Nat)
    (hi : vars[i]? = some (vn, some ts)) (hfirst : ∀ j < i, ∀ x, vars[j]? = some x → x.1 ≠ vn)
    (hidx : impl.index i vs = .ok idx) (hname : impl.name_by_index idx = .ok vn)
    (hfits : FitsEach env ts vs) (hn : (Val.variant i vs).depth < n)
    (h : toBytes env (.named name) (.variant i vs) = .ok bs) :
    fromBytes env n (.named name) bs = .ok (.variant i vs) ↔ ts.length ≤ 9 := by
  constructor
  · intro hr
    refine Decidable.byContradiction fun hc => ?_
    rw [C25_indexer_panics env name vars impl henv i vn ts vs idx bs n hi hfirst hidx hname (by omega) hfits hn
      h] at hr
    cases hr
  · intro h9
    refine C25_read_back_partial env name i vs bs n ?_ h hn
    simp only [Fits, henv, hi]
    exact ⟨⟨idx, hidx, hname⟩, hfirst, h9, hfits⟩

/-- C25, exactly, for `XdrUnion`: nine fields after the discriminant. -/
theorem C25_union_exact (env : Env) (name : String) (disc : Ty)
    (vars : List (String × Option (List Ty)))
    (impl : UnionImpl) (henv : env name = some (.union disc vars impl)) (i : Nat) (vn : String)
    (ts : List Ty) (v : Val) (vs : List Val) (bs : Bytes) (n : Nat)
    (hi : vars[i]? = some (vn, some (disc :: ts)))
    (hfirst : ∀ j < i, ∀ x, vars[j]? = some x → x.1 ≠ vn)
    (hname : impl.name_by_value v = .ok vn)
    (hfits : FitsEach env (disc :: ts) (v :: vs))
    (hn : (Val.variant i (v :: vs)).depth < n)
    (h : toBytes env (.named name) (.variant i (v :: vs)) = .ok bs) :
    fromBytes env n (.named name) bs = .ok (.variant i (v :: vs)) ↔ ts.length ≤ 9 := by
  constructor
  · intro hr
    refine Decidable.byContradiction fun hc => ?_
    rw [C25_union_panics env name disc vars impl henv i vn ts v vs bs n hi hfirst hname (by omega) hfits hn
      h] at hr
    cases hr
  · intro h9
    refine C25_read_back_partial env name i (v :: vs) bs n ?_ h hn
    simp only [Fits, henv, hi]
    exact ⟨⟨ts, v, vs, rfl, rfl, h9, hname⟩, hfirst, hfits⟩

example (bs : Bytes) (h : toBytes Sample.wide (.named "Ix") (.variant 0 (List.replicate 10 (.u32 7))) = .ok bs) :
    fromBytes Sample.wide 2 (.named "Ix") bs ≠ .ok (.variant 0 (List.replicate 10 (.u32 7))) := by
  intro hr
  have := (C25_indexer_exact Sample.wide "Ix" _ _ rfl 0 "A" (List.replicate 10 .u32) (List.replicate 10 (.u32 7)) 4
    bs 2 rfl (by simp) rfl rfl (by simp [List.replicate, FitsEach, Fits]) (by decide) h).mp hr
  simp at this

end Xdr
