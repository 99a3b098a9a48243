import Verif.Props.Enums
/-! # C27: maps

A map with entries `es` is compared with the vector of its entries as pairs. -/

namespace Xdr

/-- The entries of a map as a vector of pairs. -/
def pairs (es : List (Val × Val)) : Val := .seq (es.map fun e => .seq [e.1, e.2])

theorem presentAll_pairs (env : Env) (k t : Ty) (es : List (Val × Val)) :
    presentAll env (.tuple [k, t]) (es.map fun e => .seq [e.1, e.2]) =
      (presentEntries env k t es).map (fun ss => ss.map fun s => .tuple 2 [s.1, s.2]) := by
  induction es with
  | nil => rfl
  | cons e es ih =>
    obtain ⟨a, b⟩ := e
    rw [List.map_cons, presentAll, ih, present, presentEach, presentEach, presentEach, presentEntries]
    cases present env k a with
    | none => rfl
    | some s =>
      cases present env t b with
      | none => rfl
      | some s' => cases presentEntries env k t es <;> rfl

theorem bytesList_pairs (ss : List (SVal × SVal)) :
    bytesList (ss.map fun s => .tuple 2 [s.1, s.2]) = bytesEntries ss := by
  induction ss with
  | nil => rfl
  | cons s ss ih =>
    rw [List.map_cons, bytesList_cons, ih, to_bytes_node, nodeBytes, bytesList_cons, bytesList_cons,
      bytesList_nil, Res.cat_nil]
    rfl

/-- C27, writing: a map is written like the vector of its entries, in iteration order. -/
theorem C27_write (env : Env) (k t : Ty) (es : List (Val × Val))
    (hty : HasTy env (.map k t) (.map es)) :
    toBytes env (.map k t) (.map es) = toBytes env (.vec (.tuple [k, t])) (pairs es) := by
  unfold HasTy at hty
  simp only [present] at hty
  split at hty
  · rename_i hd
    rw [Option.isSome_map] at hty
    cases hs : presentEntries env k t es with
    | none => simp [hs] at hty
    | some ss =>
      simp only [toBytes, pairs, present, presentAll_pairs, hd, if_true, hs, Option.map_some,
        List.length_map]
      rw [to_bytes_node, to_bytes_node, nodeBytes, nodeBytes, bytesList_pairs]
  · simp at hty

/-! ## Which entries survive insertion -/

theorem mem_mapInsert (k v : Val) (acc : List (Val × Val)) (hd : (acc.map (·.1)).Nodup) (k' v' : Val) :
    (k', v') ∈ mapInsert k v acc ↔ (k' = k ∧ v' = v) ∨ (k' ≠ k ∧ (k', v') ∈ acc) := by
  induction acc with
  | nil => simp [mapInsert]
  | cons e es ih =>
    obtain ⟨a, b⟩ := e
    simp only [List.map_cons, List.nodup_cons] at hd
    rw [mapInsert]
    cases hs : a.same k with
    | true =>
      obtain rfl := (Val.same_iff _ _).mp hs
      simp only [if_true, List.mem_cons, Prod.mk.injEq]
      by_cases h : k' = a
      · subst h
        simp only [true_and, ne_eq, not_true_eq_false, false_and, or_false]
        refine ⟨fun h => h.elim id fun h => ?_, .inl⟩
        exact absurd (List.mem_map_of_mem (f := (·.1)) h) hd.1
      · simp [h]
    | false =>
      have hne : a ≠ k := fun h => by simp [(Val.same_iff a k).mpr h] at hs
      simp only [Bool.false_eq_true, if_false, List.mem_cons, ih hd.2, Prod.mk.injEq]
      by_cases h : k' = k
      · subst h
        simp [Ne.symm hne]
      · simp [h]

theorem keys_mapInsert (k v : Val) (acc : List (Val × Val)) (hd : (acc.map (·.1)).Nodup) :
    ((mapInsert k v acc).map (·.1)).Nodup := by
  induction acc with
  | nil => simp [mapInsert]
  | cons e es ih =>
    obtain ⟨a, b⟩ := e
    simp only [List.map_cons, List.nodup_cons] at hd
    rw [mapInsert]
    cases hs : a.same k with
    | true => simpa using hd
    | false =>
      have hne : a ≠ k := fun h => by simp [(Val.same_iff a k).mpr h] at hs
      simp only [Bool.false_eq_true, if_false, List.map_cons, List.nodup_cons]
      refine ⟨fun hm => ?_, ih hd.2⟩
      obtain ⟨⟨x, y⟩, hxy, hx⟩ := List.mem_map.mp hm
      simp only at hx; subst hx
      rw [mem_mapInsert _ _ _ hd.2] at hxy
      rcases hxy with ⟨h, _⟩ | ⟨_, h⟩
      · exact hne h
      · exact hd.1 (List.mem_map_of_mem (f := (·.1)) h)

theorem insertAll_spec (acc es : List (Val × Val)) (hd : (acc.map (·.1)).Nodup) :
    ((insertAll acc es).map (·.1)).Nodup ∧
    ∀ k v, (k, v) ∈ insertAll acc es ↔
      (∃ l1 l2, es = l1 ++ (k, v) :: l2 ∧ ∀ e ∈ l2, e.1 ≠ k) ∨
      ((k, v) ∈ acc ∧ ∀ e ∈ es, e.1 ≠ k) := by
  induction es generalizing acc with
  | nil => simp [insertAll, hd]
  | cons e es ih =>
    obtain ⟨a, b⟩ := e
    rw [insertAll]
    have hd' := keys_mapInsert a b acc hd
    refine ⟨(ih _ hd').1, fun k v => ?_⟩
    rw [(ih _ hd').2 k v, mem_mapInsert a b acc hd]
    constructor
    · rintro (⟨l1, l2, rfl, h⟩ | ⟨h1, h2⟩)
      · exact .inl ⟨(a, b) :: l1, l2, rfl, h⟩
      · rcases h1 with ⟨rfl, rfl⟩ | ⟨hk, h1⟩
        · exact .inl ⟨[], es, rfl, h2⟩
        · refine .inr ⟨h1, fun e he => ?_⟩
          rcases List.mem_cons.mp he with rfl | he
          · exact Ne.symm hk
          · exact h2 e he
    · rintro (⟨l1, l2, he, h⟩ | ⟨h1, h2⟩)
      · cases l1 with
        | nil =>
          simp only [List.nil_append, List.cons.injEq, Prod.mk.injEq] at he
          obtain ⟨⟨rfl, rfl⟩, rfl⟩ := he
          exact .inr ⟨by simp, h⟩
        | cons x l1 =>
          simp only [List.cons_append, List.cons.injEq] at he
          exact .inl ⟨l1, l2, he.2, h⟩
      · have hk : a ≠ k := h2 (a, b) (by simp)
        refine .inr ⟨.inr ⟨Ne.symm hk, h1⟩, fun e he => h2 e (by simp [he])⟩

theorem deTy_map_reads (env : Env) (n : Nat) (k t : Ty) (es : List (Val × Val)) (bs : Bytes)
    (hlen : es.length < 2 ^ 32) (h : ReadsEntries (deTy env n k) (deTy env n t) bs es) :
    Reads (deTy env (n + 1) (.map k t)) (lenBytes es.length ++ bs) (.map (insertAll [] es)) := by
  have : Reads (deserialize_map fun acc =>
      visitMap (deTy env n k) (deTy env n t) (acc.count + 1) acc [])
      (lenBytes es.length ++ bs) (insertAll [] es) := by
    refine (reads_u32 _).bind ?_
    rw [UInt32.toNat_ofNat', Nat.mod_eq_of_lt hlen]
    exact reads_visitMap h []
  exact this.map (Reads.pure _)

theorem fitsEntries_pairs (env : Env) (k t : Ty) (es : List (Val × Val)) :
    FitsAll env (.tuple [k, t]) (es.map fun e => .seq [e.1, e.2]) ↔ FitsEntries env k t es := by
  induction es with
  | nil => simp [FitsAll, FitsEntries]
  | cons e es ih => simp [FitsAll, FitsEntries, Fits, FitsEach, ih, and_assoc]

/-- C27, reading: from the encoding of any list of entries, repeated keys included, a map is read
whose keys are distinct and in which every key has the value of its last entry. -/
theorem C27_read (env : Env) (k t : Ty) (es : List (Val × Val)) (bs : Bytes) (n : Nat)
    (hfits : Fits env (.vec (.tuple [k, t])) (pairs es)) (hn : (pairs es).depth < n)
    (h : toBytes env (.vec (.tuple [k, t])) (pairs es) = .ok bs) :
    ∃ m, fromBytes env n (.map k t) bs = .ok (.map m) ∧ (m.map (·.1)).Nodup ∧
      ∀ key v, (key, v) ∈ m ↔ ∃ l1 l2, es = l1 ++ (key, v) :: l2 ∧ ∀ e ∈ l2, e.1 ≠ key := by
  obtain ⟨n, rfl, hd⟩ := depth_pos hn
  simp only [pairs, Fits, List.length_map] at hfits
  rw [fitsEntries_pairs] at hfits
  simp only [pairs, Val.depth] at hd
  simp only [toBytes, pairs, present, presentAll_pairs] at h
  cases hs : presentEntries env k t es with
  | none => simp [hs] at h
  | some ss =>
    simp only [hs, Option.map_some, List.length_map] at h
    rw [to_bytes_node, nodeBytes, bytesList_pairs] at h
    obtain ⟨b1, b2, h1, h2, rfl⟩ := Res.cat_eq_ok h
    rw [countBytes, Res.ok.injEq] at h1; subst h1
    have hp := presentEntries_sound' env k t es
      (fun e _ => ⟨fun t s h => present_sound env t _ s h, fun t s h => present_sound env t _ s h⟩) ss hs
    have hdep : depthEntries es ≤ n := by
      have : ∀ es : List (Val × Val), depthEntries es ≤ depthList (es.map fun e => .seq [e.1, e.2]) := by
        intro es
        induction es with
        | nil => simp [depthEntries]
        | cons e es ih =>
          simp only [depthEntries, List.map_cons, depthList, Val.depth]
          omega
      have := this es
      omega
    have hr := deTy_map_reads env n k t es b2 hfits.1 (roundtripEntries_aux hp hfits.2 hdep h2)
    have hsp := insertAll_spec [] es (by simp)
    refine ⟨_, ?_, hsp.1, fun key v => ?_⟩
    · have h0 := hr []
      rw [List.append_nil] at h0
      unfold fromBytes
      rw [from_bytes_ok h0, if_pos rfl]
    · rw [hsp.2]; simp

/-- C27: a map and the same map in another iteration order are read back as equal maps. -/
theorem C27_any_order (env : Env) (k t : Ty) (es es' : List (Val × Val)) (bs : Bytes) (n : Nat)
    (hperm : es'.Perm es) (hfits : Fits env (.map k t) (.map es'))
    (hn : (Val.map es').depth < n) (h : toBytes env (.map k t) (.map es') = .ok bs) :
    ∃ m, fromBytes env n (.map k t) bs = .ok (.map m) ∧ m.Perm es :=
  ⟨es', C01_roundtrip env (.map k t) (.map es') bs n hfits hn h, hperm⟩

theorem distinctKeys_iff (es : List (Val × Val)) :
    distinctKeys Val.same es = true ↔ (es.map (·.1)).Nodup := by
  induction es with
  | nil => simp [distinctKeys]
  | cons e es ih =>
    obtain ⟨k, v⟩ := e
    simp only [distinctKeys, Bool.and_eq_true, List.all_eq_true, Bool.not_eq_true', ih, List.map_cons,
      List.nodup_cons, List.mem_map, not_exists, not_and]
    refine and_congr_left fun _ => forall_congr' fun e => forall_congr' fun _ => ?_
    rw [← Bool.not_eq_true, Val.same_iff]
    exact ⟨fun h h' => h h'.symm, fun h h' => h h'.symm⟩

theorem presentEntries_isSome (env : Env) (k t : Ty) (es : List (Val × Val)) :
    (presentEntries env k t es).isSome ↔ ∀ e ∈ es, HasTy env k e.1 ∧ HasTy env t e.2 := by
  induction es with
  | nil => simp [presentEntries]
  | cons e es ih =>
    obtain ⟨a, b⟩ := e
    rw [presentEntries, List.forall_mem_cons, ← ih]
    unfold HasTy
    cases present env k a <;> cases present env t b <;> cases presentEntries env k t es <;> simp

theorem hasTy_map_iff (env : Env) (k t : Ty) (es : List (Val × Val)) :
    HasTy env (.map k t) (.map es) ↔
      (es.map (·.1)).Nodup ∧ ∀ e ∈ es, HasTy env k e.1 ∧ HasTy env t e.2 := by
  rw [← presentEntries_isSome, ← distinctKeys_iff]
  unfold HasTy
  rw [present]
  cases distinctKeys Val.same es <;> simp

theorem fitsEntries_iff (env : Env) (k t : Ty) (es : List (Val × Val)) :
    FitsEntries env k t es ↔ ∀ e ∈ es, Fits env k e.1 ∧ Fits env t e.2 := by
  induction es with
  | nil => simp [FitsEntries]
  | cons e es ih => simp [FitsEntries, ih, and_assoc]

/-- The hypotheses of `C27_any_order` do not depend on the order. -/
theorem C27_order_irrelevant (env : Env) (k t : Ty) (es es' : List (Val × Val))
    (hperm : es'.Perm es) :
    (HasTy env (.map k t) (.map es') ↔ HasTy env (.map k t) (.map es)) ∧
    (Fits env (.map k t) (.map es') ↔ Fits env (.map k t) (.map es)) := by
  rw [hasTy_map_iff, hasTy_map_iff]
  simp only [Fits, fitsEntries_iff, hperm.mem_iff, hperm.length_eq, (hperm.map _).nodup_iff]
  exact ⟨trivial, trivial⟩

example : toBytes Sample.env (.map .u8 .bool) (.map [(.u8 1, .bool true), (.u8 0, .bool false)]) =
    toBytes Sample.env (.vec (.tuple [.u8, .bool]))
      (.seq [.seq [.u8 1, .bool true], .seq [.u8 0, .bool false]]) :=
  C27_write Sample.env .u8 .bool [(.u8 1, .bool true), (.u8 0, .bool false)]
    (by unfold HasTy; decide +kernel)

/-- A repeated key: the last value, `false`, is the one kept. -/
example : ∃ m, fromBytes Sample.env 3 (.map .u8 .bool)
      [0, 0, 0, 2, 0, 0, 0, 5, 0, 0, 0, 1, 0, 0, 0, 5, 0, 0, 0, 0] = .ok (.map m) ∧
    (.u8 5, .bool false) ∈ m := by
  obtain ⟨m, h1, _, h2⟩ := C27_read Sample.env .u8 .bool [(.u8 5, .bool true), (.u8 5, .bool false)]
    [0, 0, 0, 2, 0, 0, 0, 5, 0, 0, 0, 1, 0, 0, 0, 5, 0, 0, 0, 0] 3
    (by simp [pairs, Fits, FitsAll, FitsEach]) (by decide +kernel) (by decide +kernel)
  exact ⟨m, h1, (h2 _ _).mpr ⟨[(.u8 5, .bool true)], [], rfl, by simp⟩⟩

end Xdr
