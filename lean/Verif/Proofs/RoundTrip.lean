import Verif.Proofs.De
import Verif.Proofs.Pres
import Verif.Spec.Fits
/-! # Lemmas: decoding reads back what encoding wrote -/

namespace Xdr

/-! ## Value equality -/

mutual
theorem Val.same_refl : (a : Val) → a.same a = true
  | .bool _ | .i8 _ | .i16 _ | .i32 _ | .i64 _ | .u8 _ | .u16 _ | .u32 _ | .u64 _ | .f32 _ | .f64 _
  | .char _ | .str _ | .bytes _ | .none | .unit => by simp [Val.same]
  | .some a => by simp [Val.same, Val.same_refl a]
  | .seq a => by simp [Val.same, sameList_refl a]
  | .map a => by simp [Val.same, sameEntries_refl a]
  | .variant _ a => by simp [Val.same, sameList_refl a]

theorem sameList_refl : (a : List Val) → sameList a a = true
  | [] => rfl
  | a :: as => by simp [sameList, Val.same_refl a, sameList_refl as]

theorem sameEntries_refl : (a : List (Val × Val)) → sameEntries a a = true
  | [] => rfl
  | (a, b) :: as => by simp [sameEntries, Val.same_refl a, Val.same_refl b, sameEntries_refl as]
end

mutual
theorem Val.same_eq : (a b : Val) → a.same b = true → a = b := by
  intro a b h
  match a with
  | .bool _ | .i8 _ | .i16 _ | .i32 _ | .i64 _ | .u8 _ | .u16 _ | .u32 _ | .u64 _ | .f32 _ | .f64 _
  | .char _ | .str _ | .bytes _ =>
    cases b <;> simp [Val.same] at h
    rw [h]
  | .none | .unit =>
    cases b <;> simp [Val.same] at h
    rfl
  | .some a =>
    cases b <;> simp only [Val.same, Bool.false_eq_true] at h
    rw [Val.same_eq a _ h]
  | .seq a =>
    cases b <;> simp only [Val.same, Bool.false_eq_true] at h
    rw [sameList_eq a _ h]
  | .map a =>
    cases b <;> simp only [Val.same, Bool.false_eq_true] at h
    rw [sameEntries_eq a _ h]
  | .variant i a =>
    cases b <;> simp only [Val.same, Bool.false_eq_true, Bool.and_eq_true, beq_iff_eq] at h
    rw [h.1, sameList_eq a _ h.2]

theorem sameList_eq : (a b : List Val) → sameList a b = true → a = b
  | [], [], _ => rfl
  | a :: as, b :: bs, h => by
    simp only [sameList, Bool.and_eq_true] at h
    rw [Val.same_eq a b h.1, sameList_eq as bs h.2]
  | [], _ :: _, h => by simp [sameList] at h
  | _ :: _, [], h => by simp [sameList] at h

theorem sameEntries_eq : (a b : List (Val × Val)) → sameEntries a b = true → a = b
  | [], [], _ => rfl
  | (a, c) :: as, (b, d) :: bs, h => by
    simp only [sameEntries, Bool.and_eq_true] at h
    rw [Val.same_eq a b h.1.1, Val.same_eq c d h.1.2, sameEntries_eq as bs h.2]
  | [], _ :: _, h => by simp [sameEntries] at h
  | _ :: _, [], h => by simp [sameEntries] at h
end

theorem Val.same_iff (a b : Val) : a.same b = true ↔ a = b :=
  ⟨Val.same_eq a b, fun h => h ▸ Val.same_refl a⟩

/-! ## Maps -/

theorem mapInsert_new (k v : Val) (acc : List (Val × Val)) (h : ∀ e ∈ acc, e.1 ≠ k) :
    mapInsert k v acc = acc ++ [(k, v)] := by
  induction acc with
  | nil => rfl
  | cons e es ih =>
    obtain ⟨k', v'⟩ := e
    have hk : k' ≠ k := h (k', v') (by simp)
    have : k'.same k = false := by
      cases hs : k'.same k
      · rfl
      · exact absurd (Val.same_eq _ _ hs) hk
    rw [mapInsert, this, ih fun e he => h e (by simp [he])]
    simp

theorem insertAll_new (acc es : List (Val × Val)) (h : ∀ e ∈ acc, ∀ e' ∈ es, e.1 ≠ e'.1)
    (hd : distinctKeys Val.same es = true) : insertAll acc es = acc ++ es := by
  induction es generalizing acc with
  | nil => simp [insertAll]
  | cons e es ih =>
    obtain ⟨k, v⟩ := e
    simp only [distinctKeys, Bool.and_eq_true, List.all_eq_true, Bool.not_eq_true'] at hd
    rw [insertAll, mapInsert_new k v acc (fun e he => h e he (k, v) (by simp)), ih _ _ hd.2]
    · simp
    · intro e he e' he'
      rcases List.mem_append.mp he with h1 | h1
      · exact h e h1 e' (by simp [he'])
      · simp only [List.mem_singleton] at h1
        subst h1
        intro heq
        have := hd.1 e' he'
        rw [← heq, Val.same_refl] at this
        simp at this

/-! ## Variants -/

theorem findVariant_of {α : Type} {vars : List (String × α)} {i : Nat} {vn : String} {f : α}
    (hv : vars[i]? = some (vn, f)) (hne : ∀ j < i, ∀ x, vars[j]? = some x → x.1 ≠ vn) (k : Nat) :
    findVariant vn vars k = some (k + i, f) := by
  induction vars generalizing i k with
  | nil => simp at hv
  | cons x xs ih =>
    obtain ⟨n, a⟩ := x
    cases i with
    | zero =>
      simp only [List.getElem?_cons_zero, Option.some.injEq, Prod.mk.injEq] at hv
      simp [findVariant, hv.1, hv.2]
    | succ i =>
      have hn : n ≠ vn := hne 0 (by omega) (n, a) (by simp)
      rw [findVariant, if_neg hn, ih (by simpa using hv) ?_ (k + 1)]
      · congr 2; omega
      · intro j hj y hy
        exact hne (j + 1) (by omega) y (by simpa using hy)

theorem bytesFields_zip (fs : List (String × Ty)) (ss : List SVal) (h : fs.length = ss.length) :
    bytesFields (zipNames fs ss) = bytesList ss := by
  induction fs generalizing ss with
  | nil => cases ss with
    | nil => rfl
    | cons _ _ => simp at h
  | cons f fs ih =>
    cases ss with
    | nil => simp at h
    | cons s ss =>
      simp only [List.length_cons, Nat.add_right_cancel_iff] at h
      have := ih ss h
      simp only [zipNames, bytesFields, bytesList, List.map_cons, List.zip_cons_cons,
        Res.concat] at this ⊢
      rw [this]

theorem PresEach.length {env : Env} {ts : List Ty} {vs : List Val} {ss : List SVal} :
    PresEach env ts vs ss → ts.length = vs.length ∧ ts.length = ss.length
  | .nil => ⟨rfl, rfl⟩
  | .cons _ h => by simp [h.length.1, ← h.length.2]

theorem PresAll.length {env : Env} {t : Ty} {vs : List Val} {ss : List SVal} :
    PresAll env t vs ss → vs.length = ss.length
  | .nil _ => rfl
  | .cons _ h => by simp [h.length]

theorem index_reads {i : Nat} {bs : Bytes} (hi : i < 2 ^ 32)
    (h : indexBytes (UInt32.ofNat i) = .ok bs) :
    i < 2 ^ 31 ∧ ∀ {α : Type} (f : Nat → De α) (rest : Bytes),
      Enum_variant_seed f (bs ++ rest) = f i rest := by
  unfold indexBytes at h
  have e : (UInt32.ofNat i).toNat = i := by rw [UInt32.toNat_ofNat', Nat.mod_eq_of_lt hi]
  rw [e] at h
  split at h <;> simp only [Res.ok.injEq, reduceCtorEq] at h
  rename_i hlt
  refine ⟨hlt, fun f rest => ?_⟩
  subst h
  unfold Enum_variant_seed
  have hr := reads_i32 (Int32.ofNat i) rest
  have e2 : (Int32.ofNat i).toUInt32 = UInt32.ofNat i := by
    have := toUInt32_ofNat_toNat (UInt32.ofNat i)
    rwa [e] at this
  rw [e2] at hr
  rw [M.bind_ok hr]
  have e3 : (Int32.ofNat i).toInt = i := Int32.toInt_ofNat_of_lt (by omega)
  rw [e3, if_neg (by omega)]
  rfl

theorem variant_reads {α : Type} {vars : List (String × α)} {i : Nat} {x : String × α} {bs : Bytes}
    (hi : i < 2 ^ 32) (h : indexBytes (UInt32.ofNat i) = .ok bs) (hv : vars[i]? = some x) :
    Reads (Enum_variant_seed (variantIndex vars.length)) bs i := by
  intro rest
  obtain ⟨_, hr⟩ := index_reads hi h
  have hlt : i < vars.length := by
    rw [List.getElem?_eq_some_iff] at hv; exact hv.1
  rw [hr, variantIndex, if_pos hlt]; rfl

/-! ## Scalars -/

theorem toInt8_toInt32 (v : Int8) : v.toInt32.toInt8 = v := by simp
theorem toInt16_toInt32 (v : Int16) : v.toInt32.toInt16 = v := by simp
theorem toUInt8_toUInt32 (v : UInt8) : v.toUInt32.toUInt8 = v := by simp
theorem toUInt16_toUInt32 (v : UInt16) : v.toUInt32.toUInt16 = v := by simp

theorem depth_pos {n d : Nat} (h : d < n) : ∃ m, n = m + 1 ∧ d ≤ m := ⟨n - 1, by omega, by omega⟩

mutual
theorem roundtrip_aux {env : Env} {t : Ty} {v : Val} {s : SVal} :
    Pres env t v s → ∀ {n : Nat} {bs : Bytes}, Fits env t v → v.depth < n → to_bytes s = .ok bs →
      Reads (deTy env n t) bs v := by
  intro hp n bs hf hd hb
  obtain ⟨n, rfl, hd⟩ := depth_pos hd
  rw [to_bytes_node] at hb
  match hp with
  | .bool v =>
    simp only [nodeBytes, Res.ok.injEq] at hb; subst hb
    refine (reads_u32 _).map ?_
    cases v <;> exact Reads.pure _
  | .i8 v =>
    simp only [nodeBytes, Res.ok.injEq] at hb; subst hb
    refine (reads_i32 _).map ?_
    rw [toInt8_toInt32]; exact Reads.pure _
  | .i16 v =>
    simp only [nodeBytes, Res.ok.injEq] at hb; subst hb
    refine (reads_i32 _).map ?_
    rw [toInt16_toInt32]; exact Reads.pure _
  | .i32 v =>
    simp only [nodeBytes, Res.ok.injEq] at hb; subst hb
    exact (reads_i32 _).map (Reads.pure _)
  | .i64 v =>
    simp only [nodeBytes, Res.ok.injEq] at hb; subst hb
    exact (reads_i64 _).map (Reads.pure _)
  | .u8 v =>
    simp only [nodeBytes, Res.ok.injEq] at hb; subst hb
    refine (reads_u32 _).map ?_
    rw [toUInt8_toUInt32]; exact Reads.pure _
  | .u16 v =>
    simp only [nodeBytes, Res.ok.injEq] at hb; subst hb
    refine (reads_u32 _).map ?_
    rw [toUInt16_toUInt32]; exact Reads.pure _
  | .u32 v =>
    simp only [nodeBytes, Res.ok.injEq] at hb; subst hb
    exact (reads_u32 _).map (Reads.pure _)
  | .u64 v =>
    simp only [nodeBytes, Res.ok.injEq] at hb; subst hb
    exact (reads_u64 _).map (Reads.pure _)
  | .f32 v =>
    simp only [nodeBytes, Res.ok.injEq] at hb; subst hb
    exact (reads_u32 _).map (Reads.pure _)
  | .f64 v =>
    simp only [nodeBytes, Res.ok.injEq] at hb; subst hb
    exact (reads_u64 _).map (Reads.pure _)
  | .char v =>
    simp only [nodeBytes, Res.ok.injEq] at hb; subst hb
    exact (reads_char _).map (Reads.pure _)
  | .string v =>
    simp only [nodeBytes, Res.ok.injEq] at hb; subst hb
    simp only [Fits] at hf
    exact (reads_string hf).map (Reads.pure _)
  | .bytes v =>
    simp only [nodeBytes, Res.ok.injEq] at hb; subst hb
    simp only [Fits] at hf
    exact (reads_bytes hf).map (Reads.pure _)
  | .none t =>
    simp only [nodeBytes, Res.ok.injEq] at hb; subst hb
    exact (reads_u32 _).map (Reads.pure _)
  | .some (v := v) h =>
    simp only [nodeBytes] at hb
    obtain ⟨b1, b2, h1, h2, rfl⟩ := Res.cat_eq_ok hb
    simp only [Res.ok.injEq] at h1; subst h1
    simp only [Fits] at hf
    simp only [Val.depth] at hd
    refine (reads_u32 _).bind ?_
    exact (roundtrip_aux h hf (by omega) h2).map (Reads.pure _)
  | .unit =>
    simp only [nodeBytes, Res.ok.injEq] at hb; subst hb
    exact Reads.pure _
  | .vec (t := t) (vs := vs) h =>
    simp only [nodeBytes] at hb
    obtain ⟨b1, b2, h1, h2, rfl⟩ := Res.cat_eq_ok hb
    simp only [countBytes, Res.ok.injEq] at h1; subst h1
    simp only [Fits] at hf
    simp only [Val.depth] at hd
    have hr := roundtripAll_aux h hf.2 (n := n) (by omega) h2
    have : Reads (deserialize_seq fun seq => visitVec (deTy env n t) (seq.count + 1) seq)
        (lenBytes vs.length ++ b2) vs := by
      refine (reads_u32 _).bind ?_
      rw [UInt32.toNat_ofNat', Nat.mod_eq_of_lt hf.1]
      exact reads_visitVec hr
    exact this.map (Reads.pure _)
  | .array (t := t) (vs := vs) h =>
    simp only [nodeBytes] at hb
    simp only [Fits] at hf
    simp only [Val.depth] at hd
    have hr := roundtripAll_aux h hf (n := n) (by omega) hb
    have := reads_visitEach hr s!"an array of length {vs.length}" 0 vs.length (by simp)
    exact Reads.map this (Reads.pure _)
  | .tuple (ts := ts) (vs := vs) h =>
    simp only [nodeBytes] at hb
    simp only [Fits] at hf
    simp only [Val.depth] at hd
    have hr := roundtripEach_aux h hf (n := n) (by omega) hb
    have := reads_visitEach hr s!"a tuple of size {ts.length}" 0 ts.length (by simp)
    exact Reads.map this (Reads.pure _)
  | .map (k := k) (t := t) (es := es) hdist h =>
    simp only [nodeBytes] at hb
    obtain ⟨b1, b2, h1, h2, rfl⟩ := Res.cat_eq_ok hb
    simp only [countBytes, Res.ok.injEq] at h1; subst h1
    simp only [Fits] at hf
    simp only [Val.depth] at hd
    have hr := roundtripEntries_aux h hf.2 (n := n) (by omega) h2
    have : Reads (deserialize_map fun acc =>
        visitMap (deTy env n k) (deTy env n t) (acc.count + 1) acc [])
        (lenBytes es.length ++ b2) es := by
      refine (reads_u32 _).bind ?_
      rw [UInt32.toNat_ofNat', Nat.mod_eq_of_lt hf.1]
      have := reads_visitMap hr []
      rwa [insertAll_new [] es (by simp) hdist] at this
    exact this.map (Reads.pure _)
  | .opaqueFixed v =>
    rw [← to_bytes_node, to_bytes_fixed, Res.ok.injEq] at hb; subst hb
    exact (reads_fixed_pad v _ (by simp)).map (Reads.pure _)
  | .opaqueVar v =>
    rw [← to_bytes_node, to_bytes_variable, Res.ok.injEq] at hb; subst hb
    simp only [Fits] at hf
    exact (reads_variable hf).map (Reads.pure _)
  | .signed32 (impl := impl) (i := i) he hv =>
    simp only [signed32_serialize, nodeBytes, Res.ok.injEq] at hb; subst hb
    simp only [Fits] at hf
    have : Reads (deserialize_i32 (pure : Int32 → De Int32)) _ _ :=
      (reads_i32 (impl.as_ref (.variant i []))).map (Reads.pure _)
    refine this.map ?_
    simp only [hf]
    exact Reads.pure _
  | .unitStruct he =>
    simp only [nodeBytes, Res.ok.injEq] at hb; subst hb
    simp only [deTy, he, deDef]
    exact Reads.pure _
  | .newtypeStruct he h =>
    simp only [nodeBytes] at hb
    simp only [Fits, he] at hf
    simp only [Val.depth, depthList] at hd
    simp only [deTy, he, deDef]
    exact (roundtrip_aux h hf (by omega) hb).map (Reads.pure _)
  | .tupleStruct (name := name) (ts := ts) he h =>
    simp only [nodeBytes] at hb
    simp only [Fits, he] at hf
    simp only [Val.depth] at hd
    simp only [deTy, he, deDef]
    have hr := roundtripEach_aux h hf (n := n) (by omega) hb
    have := reads_visitEach hr s!"tuple struct {name} with {ts.length} elements" 0 ts.length (by simp)
    exact Reads.map this (Reads.pure _)
  | .struct (name := name) (fs := fs) he h =>
    simp only [nodeBytes] at hb
    rw [bytesFields_zip _ _ (by simpa using h.length.2)] at hb
    simp only [Fits, he] at hf
    simp only [Val.depth] at hd
    simp only [deTy, he, deDef]
    have hr := roundtripEach_aux h hf (n := n) (by omega) hb
    rw [List.map_map] at hr
    have := reads_visitEach hr s!"struct {name} with {fs.length} elements" 0
      (fs.map (·.1)).length (by simp)
    exact Reads.map this (Reads.pure _)
  | .enumUnit he hv =>
    simp only [nodeBytes] at hb
    simp only [Fits, he] at hf
    simp only [deTy, he, deDef]
    refine Reads.map (variant_reads hf.1 hb hv) ?_
    simp only [hv]
    exact Reads.pure _
  | .enumNewtype he hv h =>
    simp only [nodeBytes] at hb
    obtain ⟨b1, b2, h1, h2, rfl⟩ := Res.cat_eq_ok hb
    simp only [Fits, he, hv] at hf
    simp only [Val.depth, depthList] at hd
    simp only [deTy, he, deDef]
    refine Reads.bind (variant_reads hf.1 h1 hv) ?_
    simp only [hv]
    exact (roundtrip_aux h hf.2 (by omega) h2).map (Reads.pure _)
  | .enumTuple (name := name) (vn := vn) (ts := ts) he hv h =>
    simp only [nodeBytes] at hb
    obtain ⟨b1, b2, h1, h2, rfl⟩ := Res.cat_eq_ok hb
    simp only [Fits, he, hv] at hf
    simp only [Val.depth] at hd
    simp only [deTy, he, deDef]
    refine Reads.bind (variant_reads hf.1 h1 hv) ?_
    simp only [hv]
    have hr := roundtripEach_aux h hf.2 (n := n) (by omega) h2
    have := reads_visitEach hr s!"tuple variant {name}::{vn} with {ts.length} elements" 0 ts.length
      (by simp)
    exact Reads.map this (Reads.pure _)
  | .enumStruct (name := name) (vn := vn) (fs := fs) he hv h =>
    simp only [nodeBytes] at hb
    obtain ⟨b1, b2, h1, h2, rfl⟩ := Res.cat_eq_ok hb
    rw [bytesFields_zip _ _ (by simpa using h.length.2)] at h2
    simp only [Fits, he, hv] at hf
    simp only [Val.depth] at hd
    simp only [deTy, he, deDef]
    refine Reads.bind (variant_reads hf.1 h1 hv) ?_
    simp only [hv]
    have hr := roundtripEach_aux h hf.2 (n := n) (by omega) h2
    rw [List.map_map] at hr
    have := reads_visitEach hr s!"struct variant {name}::{vn} with {fs.length} elements" 0
      (fs.map (·.1)).length (by simp)
    exact Reads.map this (Reads.pure _)
  | .indexerUnit he hv =>
    simp only [Fits, he, hv] at hf
    obtain ⟨⟨idx, hidx, hname⟩, hne, _⟩ := hf
    simp only [hidx, SVal.ofUser, nodeBytes, bytesList_cons, bytesList_nil, Res.cat_nil,
      to_bytes_node, Res.ok.injEq] at hb
    subst hb
    simp only [deTy, he, deDef]
    have h1 : Reads (deserialize_i32 (pure : Int32 → De Int32)) _ idx :=
      (reads_i32 idx).map (Reads.pure _)
    refine Reads.map (next_reads (n := 9) h1) ?_
    simp only [hname, findVariant_of hv hne 0, Nat.zero_add]
    exact Reads.pure _
  | .indexer he hv h =>
    simp only [Fits, he, hv] at hf
    obtain ⟨⟨idx, hidx, hname⟩, hne, hlen, hf⟩ := hf
    simp only [Val.depth] at hd
    simp only [hidx, SVal.ofUser, nodeBytes, bytesList_cons] at hb
    obtain ⟨b1, b2, h1, h2, rfl⟩ := Res.cat_eq_ok hb
    simp only [to_bytes_node, nodeBytes, Res.ok.injEq] at h1
    subst h1
    simp only [deTy, he, deDef]
    have h1 : Reads (deserialize_i32 (pure : Int32 → De Int32)) _ idx :=
      (reads_i32 idx).map (Reads.pure _)
    refine Reads.bind (next_reads (n := 9) h1) ?_
    simp only [hname, findVariant_of hv hne 0, Nat.zero_add]
    have hr := roundtripEach_aux h hf (n := n) (by omega) h2
    exact (reads_visitUnwrap hr 9 (by simpa using hlen)).map (Reads.pure _)
  | .unionUnit he hv =>
    simp only [Fits, he, hv] at hf
    obtain ⟨⟨ts, v, vs', h1, _⟩, _⟩ := hf
    simp at h1
  | .union he hv h =>
    simp only [Fits, he, hv] at hf
    obtain ⟨⟨ts, v, vs', hts, hvs, hlen, hname⟩, hne, hf⟩ := hf
    simp only [Val.depth] at hd
    simp only [nodeBytes] at hb
    have hr := roundtripEach_aux h hf (n := n) (by omega) hb
    clear hf hd hb h
    simp only [Option.some.injEq] at hts
    subst hts; subst hvs
    simp only [deTy, he, deDef]
    rw [List.map_cons] at hr
    cases hr with
    | cons h1 h2 =>
      refine Reads.bind (next_reads (n := 9) h1) ?_
      simp only [hname, findVariant_of hv hne 0, Nat.zero_add]
      exact (reads_visitUnwrap h2 9 (by simpa using hlen)).map (Reads.pure _)

theorem roundtripAll_aux {env : Env} {t : Ty} {vs : List Val} {ss : List SVal} :
    PresAll env t vs ss → ∀ {n : Nat} {bs : Bytes}, FitsAll env t vs → depthList vs ≤ n →
      bytesList ss = .ok bs → ReadsAll (List.replicate vs.length (deTy env n t)) bs vs := by
  intro hp n bs hf hd hb
  match hp with
  | .nil _ => simp at hb; subst hb; exact .nil
  | .cons h hs =>
    simp only [FitsAll] at hf
    simp only [depthList] at hd
    rw [bytesList_cons] at hb
    obtain ⟨b1, b2, h1, h2, rfl⟩ := Res.cat_eq_ok hb
    exact .cons (roundtrip_aux h hf.1 (by omega) h1) (roundtripAll_aux hs hf.2 (by omega) h2)

theorem roundtripEach_aux {env : Env} {ts : List Ty} {vs : List Val} {ss : List SVal} :
    PresEach env ts vs ss → ∀ {n : Nat} {bs : Bytes}, FitsEach env ts vs → depthList vs ≤ n →
      bytesList ss = .ok bs → ReadsAll (ts.map (deTy env n)) bs vs := by
  intro hp n bs hf hd hb
  match hp with
  | .nil => simp at hb; subst hb; exact .nil
  | .cons h hs =>
    simp only [FitsEach] at hf
    simp only [depthList] at hd
    rw [bytesList_cons] at hb
    obtain ⟨b1, b2, h1, h2, rfl⟩ := Res.cat_eq_ok hb
    exact .cons (roundtrip_aux h hf.1 (by omega) h1) (roundtripEach_aux hs hf.2 (by omega) h2)

theorem roundtripEntries_aux {env : Env} {k t : Ty} {es : List (Val × Val)}
    {ss : List (SVal × SVal)} :
    PresEntries env k t es ss → ∀ {n : Nat} {bs : Bytes}, FitsEntries env k t es →
      depthEntries es ≤ n → bytesEntries ss = .ok bs →
      ReadsEntries (deTy env n k) (deTy env n t) bs es := by
  intro hp n bs hf hd hb
  match hp with
  | .nil _ _ => 
    simp [bytesEntries, Res.concat] at hb; subst hb; exact .nil
  | .cons h h' hs =>
    simp only [FitsEntries] at hf
    simp only [depthEntries] at hd
    simp only [bytesEntries, List.map_cons, Res.concat] at hb
    rw [Res.cat_assoc] at hb
    obtain ⟨b1, b', h1, h', rfl⟩ := Res.cat_eq_ok hb
    obtain ⟨b2, b3, h2, h3, rfl⟩ := Res.cat_eq_ok h'
    exact .cons (roundtrip_aux h hf.1 (by omega) h1) (roundtrip_aux ‹Pres env t _ _› hf.2.1 (by omega) h2)
      (roundtripEntries_aux hs hf.2.2 (by omega) h3)
end

/-- Decoding, with any sufficient recursion bound, reads exactly the encoding. -/
theorem roundtrip {env : Env} {t : Ty} {v : Val} {bs : Bytes} {n : Nat} (h : toBytes env t v = .ok bs)
    (hf : Fits env t v) (hd : v.depth < n) : Reads (deTy env n t) bs v := by
  unfold toBytes at h
  split at h
  · rename_i s hs
    exact roundtrip_aux (present_sound env t v s hs) hf hd h
  · simp at h

end Xdr
