import Verif.Spec.Cuts
import Verif.Proofs.RoundTrip
import Verif.Proofs.Utf8
/-! # Lemmas: reading the beginning of an encoding -/

namespace Xdr

/-- What the reader does at a stop. -/
def Stop.result {α : Type} : Stop → Res α
  | .missing n => .err (.notEnoughData n)
  | .inPadding => .panic .paddingSlice

theorem padding_eq (n : Nat) : padding n = padLen n := rfl

theorem piecesSize_append (ps qs : List Piece) :
    piecesSize (ps ++ qs) = piecesSize ps + piecesSize qs := by
  simp [piecesSize]

theorem piecesSize_cons (p : Piece) (ps : List Piece) : piecesSize (p :: ps) = p.size + piecesSize ps := by
  simp [piecesSize]

theorem stopAt_left : ∀ {ps : List Piece} (qs : List Piece) {k : Nat}, k < piecesSize ps →
    stopAt (ps ++ qs) k = stopAt ps k
  | [], _, k, h => by simp [piecesSize] at h
  | .unit n :: ps, qs, k, h => by
    rw [piecesSize_cons, Piece.size] at h
    simp only [List.cons_append, stopAt]
    split
    · rfl
    · exact stopAt_left qs (by omega)
  | .text n :: ps, qs, k, h => by
    rw [piecesSize_cons, Piece.size] at h
    simp only [List.cons_append, stopAt]
    split
    · rfl
    split
    · rfl
    split
    · rfl
    · exact stopAt_left qs (by omega)

theorem stopAt_right : ∀ (ps qs : List Piece) {k : Nat}, piecesSize ps ≤ k →
    stopAt (ps ++ qs) k = stopAt qs (k - piecesSize ps)
  | [], _, k, h => rfl
  | .unit n :: ps, qs, k, h => by
    rw [piecesSize_cons, Piece.size] at h
    simp only [List.cons_append, stopAt, piecesSize_cons, Piece.size]
    rw [if_neg (by omega), stopAt_right ps qs (by omega)]
    congr 1
    omega
  | .text n :: ps, qs, k, h => by
    rw [piecesSize_cons, Piece.size] at h
    simp only [List.cons_append, stopAt, piecesSize_cons, Piece.size]
    rw [if_neg (by omega), if_neg (by omega), if_neg (by omega), stopAt_right ps qs (by omega)]
    congr 1
    omega

/-- `d` reads exactly the bytes `bs`, and stops where their pieces are cut. -/
structure Cuts {α : Type} (d : De α) (bs : Bytes) (v : α) (ps : List Piece) : Prop where
  reads : Reads d bs v
  size : bs.length = piecesSize ps
  stops : ∀ k, k < bs.length → d (bs.take k) = (stopAt ps k).result

theorem bind_stop {α β : Type} {d : De α} {f : α → De β} {input : Bytes} {s : Stop}
    (h : d input = s.result) : (d >>= f) input = s.result := by
  cases s with
  | missing n => exact M.bind_err h
  | inPadding => exact M.bind_panic h

namespace Cuts

variable {α β : Type} {d : De α} {f : α → De β} {bs cs : Bytes} {a : α} {b : β} {ps qs : List Piece}

theorem pure (v : α) : Cuts (Pure.pure v) [] v [] := ⟨.pure v, rfl, by simp⟩

theorem bind (h : Cuts d bs a ps) (h' : Cuts (f a) cs b qs) : Cuts (d >>= f) (bs ++ cs) b (ps ++ qs) := by
  refine ⟨h.reads.bind h'.reads, by rw [List.length_append, h.size, h'.size, piecesSize_append], ?_⟩
  intro k hk
  rw [List.length_append] at hk
  by_cases hl : k < bs.length
  · rw [List.take_append_of_le_length (by omega), stopAt_left qs (by rw [← h.size]; exact hl)]
    exact bind_stop (h.stops k hl)
  · rw [List.take_append, List.take_of_length_le (by omega), M.bind_ok (h.reads _),
      stopAt_right ps qs (by rw [← h.size]; omega), ← h.size]
    exact h'.stops _ (by omega)

theorem map (h : Cuts d bs a ps) (h' : Reads (f a) [] b) : Cuts (d >>= f) bs b ps := by
  refine ⟨h.reads.map h', h.size, fun k hk => bind_stop (h.stops k hk)⟩

end Cuts

/-! ## Units and texts -/

theorem cuts_read {n : Nat} {α : Type} {g : Bytes → De α} {bs : Bytes} {v : α}
    (h : Reads (read n >>= g) bs v) (hl : bs.length = n) : Cuts (read n >>= g) bs v [.unit n] := by
  refine ⟨h, by simp [hl, piecesSize, Piece.size], fun k hk => ?_⟩
  have hlt : (bs.take k).length = k := by simp; omega
  rw [M.bind_err (read_lt (by omega)), hlt]
  simp only [stopAt]
  rw [if_pos (by omega)]
  rfl

theorem cuts_u32 (v : UInt32) : Cuts read_u32 (be32 v) v [.unit 4] := cuts_read (reads_u32 v) rfl
theorem cuts_u64 (v : UInt64) : Cuts read_u64 (be64 v) v [.unit 8] := cuts_read (reads_u64 v) rfl
theorem cuts_i32 (v : Int32) : Cuts read_i32 (be32 v.toUInt32) v [.unit 4] := cuts_read (reads_i32 v) rfl
theorem cuts_i64 (v : Int64) : Cuts read_i64 (be64 v.toUInt64) v [.unit 8] := cuts_read (reads_i64 v) rfl
theorem cuts_char (v : Char) : Cuts read_char (be32 v.val) v [.unit 4] :=
  (cuts_u32 v.val).map (by intro rest; rw [charFromU32_val]; rfl)

theorem opaqueBytes_pieces (v : Bytes) : (opaqueBytes v).length = piecesSize [.text v.length] := by
  simp [opaqueBytes_eq, lenBytes, be32_length, piecesSize, Piece.size, padding_eq]
  omega

theorem opaqueBytes_take {v : Bytes} (h : v.length < 2 ^ 32) {k : Nat} (hk : 4 ≤ k) :
    ∃ a b c d, (ofBe32 a b c d).toNat = v.length ∧
      (opaqueBytes v).take k =
        a :: b :: c :: d :: (v ++ List.replicate (padLen v.length) 0).take (k - 4) := by
  have hl : (UInt32.ofNat v.length).toNat = v.length := by
    rw [UInt32.toNat_ofNat', Nat.mod_eq_of_lt h]
  obtain ⟨k, rfl⟩ : ∃ j, k = j + 4 := ⟨k - 4, by omega⟩
  simp only [opaqueBytes_eq, lenBytes, be32, List.cons_append, List.nil_append, List.take_succ_cons]
  exact ⟨_, _, _, _, by rw [ofBe32_be32, hl], rfl⟩

theorem cuts_bytes {v : Bytes} (h : v.length < 2 ^ 32) :
    Cuts read_bytes (opaqueBytes v) v [.text v.length] := by
  refine ⟨reads_bytes h, opaqueBytes_pieces v, fun k hk => ?_⟩
  rw [opaqueBytes_pieces] at hk
  simp only [piecesSize, List.map_cons, Piece.size, padding_eq, List.map_nil, List.sum_cons,
    List.sum_nil] at hk
  have hlk : ((opaqueBytes v).take k).length = k := by
    rw [List.length_take, opaqueBytes_pieces]
    simp [piecesSize, Piece.size, padding_eq]; omega
  have hp := padding_eq (v).length
  simp only [stopAt]
  by_cases h4 : k < 4
  · rw [if_pos h4]
    unfold read_bytes
    rw [M.bind_err (read_u32_lt (by omega)), hlk]
    rfl
  · rw [if_neg h4]
    obtain ⟨a, b, c, d, hn, e⟩ := opaqueBytes_take h (k := k) (by omega)
    rw [e, read_bytes_run _ _ _ _ _ _ hn]
    have hl : ((v ++ List.replicate (padLen v.length) 0).take (k - 4)).length = k - 4 := by
      simp; omega
    rw [hl]
    by_cases h5 : k < 4 + v.length
    · rw [if_pos h5, if_pos (by omega)]
      simp only [Stop.result]
      congr 2
      omega
    · rw [if_neg h5, if_neg (by omega), if_pos (by omega), if_pos (by omega)]
      rfl

theorem cuts_string {s : List Char} (h : (utf8Bytes s).length < 2 ^ 32) :
    Cuts read_string (opaqueBytes (utf8Bytes s)) s [.text (utf8Bytes s).length] := by
  refine ⟨reads_string h, opaqueBytes_pieces _, fun k hk => ?_⟩
  rw [opaqueBytes_pieces] at hk
  simp only [piecesSize, List.map_cons, Piece.size, padding_eq, List.map_nil, List.sum_cons,
    List.sum_nil] at hk
  have hlk : ((opaqueBytes (utf8Bytes s)).take k).length = k := by
    rw [List.length_take, opaqueBytes_pieces]
    simp [piecesSize, Piece.size, padding_eq]; omega
  have hp := padding_eq (utf8Bytes s).length
  simp only [stopAt]
  by_cases h4 : k < 4
  · rw [if_pos h4]
    unfold read_string
    rw [M.bind_err (read_u32_lt (by omega)), hlk]
    rfl
  · rw [if_neg h4]
    obtain ⟨a, b, c, d, hn, e⟩ := opaqueBytes_take h (k := k) (by omega)
    rw [e, read_string_run _ _ _ _ _ _ hn]
    have hl : ((utf8Bytes s ++ List.replicate (padLen (utf8Bytes s).length) 0).take (k - 4)).length =
        k - 4 := by
      simp; omega
    rw [hl]
    by_cases h5 : k < 4 + (utf8Bytes s).length
    · rw [if_pos h5, if_pos (by omega)]
      simp only [Stop.result]
      congr 2
      omega
    · rw [if_neg h5, if_neg (by omega)]
      have : ((utf8Bytes s ++ List.replicate (padLen (utf8Bytes s).length) 0).take (k - 4)).take
          (utf8Bytes s).length = utf8Bytes s := by
        rw [List.take_take, Nat.min_eq_left (by omega)]
        simp
      rw [this, utf8Decode_bytes, if_pos (by omega)]
      simp only []
      rw [if_pos (by omega)]
      rfl

/-! ## Opaque -/

theorem piecesList_u32 (ws : List UInt32) :
    piecesList (ws.map .u32) = List.replicate ws.length (.unit 4) := by
  induction ws with
  | nil => rfl
  | cons w ws ih => rw [List.map_cons, piecesList, ih]; rfl

theorem enumerate_length (v : Bytes) : (enumerate_u32 v).length = (v.length + 3) / 4 := by
  have h := congrArg List.length (flatMap_enumerate v)
  have e : ∀ ws : List UInt32, (ws.flatMap be32).length = 4 * ws.length := by
    intro ws
    induction ws with
    | nil => rfl
    | cons w ws ih => rw [List.flatMap_cons, List.length_append, ih, be32_length, List.length_cons]; omega
  rw [e, List.length_append, List.length_replicate, padLen_add] at h
  omega

theorem stopAt_units : ∀ (n k : Nat), k < 4 * n →
    stopAt (List.replicate n (.unit 4)) k = .missing (4 - k % 4)
  | 0, k, h => by omega
  | n + 1, k, h => by
    rw [List.replicate_succ, stopAt]
    split
    · congr 1; omega
    · rw [stopAt_units n _ (by omega)]
      congr 1; omega

theorem piecesSize_units (n : Nat) : piecesSize (List.replicate n (.unit 4)) = 4 * n := by
  induction n with
  | zero => rfl
  | succ n ih => rw [List.replicate_succ, piecesSize_cons, ih, Piece.size]; omega

theorem cuts_fixed (v : Bytes) : Cuts (fixed_deserialize v.length)
    (v ++ List.replicate (padLen v.length) 0) v (fixed_serialize v).pieces := by
  have e : (fixed_serialize v).pieces = List.replicate ((v.length + 3) / 4) (.unit 4) := by
    rw [fixed_serialize, SVal.pieces, piecesList_u32, enumerate_length]
  have hp := padLen_add v.length
  rw [e]
  refine ⟨reads_fixed_pad v _ (by simp), ?_, fun k hk => ?_⟩
  · rw [piecesSize_units, ← hp]; simp
  · rw [List.length_append, List.length_replicate] at hk
    have hl : ((v ++ List.replicate (padLen v.length) 0).take k).length = k := by simp; omega
    rw [fixed_deserialize_run, hl, if_pos hk, stopAt_units _ _ (by omega)]
    rfl

theorem cuts_variable {v : Bytes} (h : v.length < 2 ^ 32) :
    Cuts variable_deserialize (opaqueBytes v) v (variable_serialize v).pieces := by
  have e : (variable_serialize v).pieces = .unit 4 :: List.replicate ((v.length + 3) / 4) (.unit 4) := by
    rw [variable_serialize, SVal.pieces, piecesList_u32, enumerate_length]
  have hp := padLen_add v.length
  rw [e]
  have hsize : (opaqueBytes v).length = 4 + (v.length + padLen v.length) := by
    simp [opaqueBytes_eq, lenBytes, be32_length]
  refine ⟨reads_variable h, ?_, fun k hk => ?_⟩
  · rw [piecesSize_cons, piecesSize_units, hsize, Piece.size]; omega
  · rw [hsize] at hk
    have hlk : ((opaqueBytes v).take k).length = k := by simp [hsize]; omega
    rw [stopAt]
    by_cases h4 : k < 4
    · rw [if_pos h4, variable_deserialize_lt (by omega), hlk]
      rfl
    · rw [if_neg h4]
      obtain ⟨a, b, c, d, hn, e⟩ := opaqueBytes_take h (k := k) (by omega)
      have hl : ((v ++ List.replicate (padLen v.length) 0).take (k - 4)).length = k - 4 := by
        simp; omega
      rw [e, variable_deserialize_run _ _ _ _ _ _ hn, hl, if_pos (by omega), stopAt_units _ _ (by omega)]
      rfl

/-! ## Loops -/

theorem next_cuts {α : Type} {n : Nat} {seed : De α} {bs : Bytes} {v : α} {ps : List Piece}
    (h : Cuts seed bs v ps) :
    Cuts (Seq.next_element { count := n + 1 } seed) bs (some v, { count := n }) ps := by
  rw [Seq.next_succ]
  exact h.map (Reads.pure _)

/-- Decoders paired with what they read. -/
inductive CutsAll : List (De Val) → Bytes → List Val → List Piece → Prop
  | nil : CutsAll [] [] [] []
  | cons {d ds bs cs v vs ps qs} : Cuts d bs v ps → CutsAll ds cs vs qs →
      CutsAll (d :: ds) (bs ++ cs) (v :: vs) (ps ++ qs)

theorem cuts_visitEach {ds : List (De Val)} {bs : Bytes} {vs : List Val} {ps : List Piece}
    (h : CutsAll ds bs vs ps) (exp : String) (i n : Nat) (hn : ds.length ≤ n) :
    Cuts (visitEach exp ds i { count := n }) bs vs ps := by
  induction h generalizing i n with
  | nil => exact Cuts.pure _
  | cons h1 _ ih =>
    obtain ⟨m, rfl⟩ : ∃ m, n = m + 1 := ⟨n - 1, by simp at hn; omega⟩
    rw [visitEach]
    refine (next_cuts h1).bind ?_
    refine (ih (i + 1) m (by simp at hn; omega)).map (Reads.pure _)

theorem cuts_visitUnwrap {ds : List (De Val)} {bs : Bytes} {vs : List Val} {ps : List Piece}
    (h : CutsAll ds bs vs ps) (n : Nat) (hn : ds.length ≤ n) :
    Cuts (visitUnwrap ds { count := n }) bs vs ps := by
  induction h generalizing n with
  | nil => exact Cuts.pure _
  | cons h1 _ ih =>
    obtain ⟨m, rfl⟩ : ∃ m, n = m + 1 := ⟨n - 1, by simp at hn; omega⟩
    rw [visitUnwrap]
    refine (next_cuts h1).bind ?_
    refine (ih m (by simp at hn; omega)).map (Reads.pure _)

theorem cuts_visitVec {d : De Val} {bs : Bytes} {vs : List Val} {ps : List Piece} {n : Nat}
    (h : CutsAll (List.replicate n d) bs vs ps) : Cuts (visitVec d (n + 1) { count := n }) bs vs ps := by
  induction n generalizing bs vs ps with
  | zero => cases h; exact Cuts.pure _
  | succ n ih =>
    rw [List.replicate_succ] at h
    cases h with
    | cons h1 h2 =>
      rw [visitVec]
      refine (next_cuts h1).bind ?_
      exact (ih h2).map (Reads.pure _)

theorem nextKey_cuts {α : Type} {n : Nat} {seed : De α} {bs : Bytes} {v : α} {ps : List Piece}
    (h : Cuts seed bs v ps) :
    Cuts (MapAcc.next_key { count := n + 1 } seed) bs (some v, { count := n }) ps := by
  have : MapAcc.next_key { count := n + 1 } seed = (seed >>= fun v => pure (some v, { count := n })) :=
    rfl
  rw [this]
  exact h.map (Reads.pure _)

/-- Key and value decoders reading a list of entries. -/
inductive CutsEntries (dk dv : De Val) : Bytes → List (Val × Val) → List Piece → Prop
  | nil : CutsEntries dk dv [] [] []
  | cons {bs cs ds k v es ps qs rs} : Cuts dk bs k ps → Cuts dv cs v qs → CutsEntries dk dv ds es rs →
      CutsEntries dk dv (bs ++ (cs ++ ds)) ((k, v) :: es) (ps ++ (qs ++ rs))

theorem cuts_visitMap {dk dv : De Val} {bs : Bytes} {es : List (Val × Val)} {ps : List Piece}
    (h : CutsEntries dk dv bs es ps) (acc : List (Val × Val)) :
    Cuts (visitMap dk dv (es.length + 1) { count := es.length } acc) bs (insertAll acc es) ps := by
  induction h generalizing acc with
  | nil => exact Cuts.pure _
  | cons h1 h2 _ ih =>
    rw [List.length_cons, visitMap]
    refine (nextKey_cuts h1).bind ?_
    refine Cuts.bind h2 ?_
    exact ih _

theorem variant_cuts {α : Type} {vars : List (String × α)} {i : Nat} {x : String × α} {bs : Bytes}
    (hi : i < 2 ^ 32) (h : indexBytes (UInt32.ofNat i) = .ok bs) (hv : vars[i]? = some x) :
    Cuts (Enum_variant_seed (variantIndex vars.length)) bs i [.unit 4] := by
  have hl : bs.length = 4 := by
    unfold indexBytes at h
    split at h <;> simp only [Res.ok.injEq, reduceCtorEq] at h
    rw [← h]
    rfl
  refine ⟨variant_reads hi h hv, by simp [hl, piecesSize, Piece.size], fun k hk => ?_⟩
  have hlt : (bs.take k).length = k := by simp; omega
  unfold Enum_variant_seed
  have e : read_i32 (bs.take k) = .err (.notEnoughData (4 - k)) := by
    unfold read_i32
    rw [M.bind_err (read_lt (by omega)), hlt]
  rw [M.bind_err e]
  simp only [stopAt]
  rw [if_pos (by omega)]
  rfl

theorem piecesFields_zip (fs : List (String × Ty)) (ss : List SVal) (h : fs.length = ss.length) :
    piecesFields (zipNames fs ss) = piecesList ss := by
  induction fs generalizing ss with
  | nil => cases ss with
    | nil => rfl
    | cons _ _ => simp at h
  | cons f fs ih =>
    cases ss with
    | nil => simp at h
    | cons s ss =>
      simp only [List.length_cons, Nat.add_right_cancel_iff] at h
      have := ih ss h
      simp only [zipNames, piecesFields, piecesList, List.map_cons, List.zip_cons_cons] at this ⊢
      rw [this]

/-! ## Values -/

mutual
theorem cuts_aux {env : Env} {t : Ty} {v : Val} {s : SVal} :
    Pres env t v s → ∀ {n : Nat} {bs : Bytes}, Fits env t v → v.depth < n → to_bytes s = .ok bs →
      Cuts (deTy env n t) bs v s.pieces := by
  intro hp n bs hf hd hb
  obtain ⟨n, rfl, hd⟩ := depth_pos hd
  rw [to_bytes_node] at hb
  match hp with
  | .bool v =>
    simp only [nodeBytes, Res.ok.injEq] at hb; subst hb
    refine (cuts_u32 _).map ?_
    cases v <;> exact Reads.pure _
  | .i8 v =>
    simp only [nodeBytes, Res.ok.injEq] at hb; subst hb
    refine (cuts_i32 _).map ?_
    rw [toInt8_toInt32]; exact Reads.pure _
  | .i16 v =>
    simp only [nodeBytes, Res.ok.injEq] at hb; subst hb
    refine (cuts_i32 _).map ?_
    rw [toInt16_toInt32]; exact Reads.pure _
  | .i32 v =>
    simp only [nodeBytes, Res.ok.injEq] at hb; subst hb
    exact (cuts_i32 _).map (Reads.pure _)
  | .i64 v =>
    simp only [nodeBytes, Res.ok.injEq] at hb; subst hb
    exact (cuts_i64 _).map (Reads.pure _)
  | .u8 v =>
    simp only [nodeBytes, Res.ok.injEq] at hb; subst hb
    refine (cuts_u32 _).map ?_
    rw [toUInt8_toUInt32]; exact Reads.pure _
  | .u16 v =>
    simp only [nodeBytes, Res.ok.injEq] at hb; subst hb
    refine (cuts_u32 _).map ?_
    rw [toUInt16_toUInt32]; exact Reads.pure _
  | .u32 v =>
    simp only [nodeBytes, Res.ok.injEq] at hb; subst hb
    exact (cuts_u32 _).map (Reads.pure _)
  | .u64 v =>
    simp only [nodeBytes, Res.ok.injEq] at hb; subst hb
    exact (cuts_u64 _).map (Reads.pure _)
  | .f32 v =>
    simp only [nodeBytes, Res.ok.injEq] at hb; subst hb
    exact (cuts_u32 _).map (Reads.pure _)
  | .f64 v =>
    simp only [nodeBytes, Res.ok.injEq] at hb; subst hb
    exact (cuts_u64 _).map (Reads.pure _)
  | .char v =>
    simp only [nodeBytes, Res.ok.injEq] at hb; subst hb
    exact (cuts_char _).map (Reads.pure _)
  | .string v =>
    simp only [nodeBytes, Res.ok.injEq] at hb; subst hb
    simp only [Fits] at hf
    have := (cuts_string hf).map (f := fun s => pure (Val.str s)) (Reads.pure _)
    rwa [show utf8Bytes v = v.flatMap String.utf8EncodeChar from utf8Bytes_core v] at this ⊢
  | .bytes v =>
    simp only [nodeBytes, Res.ok.injEq] at hb; subst hb
    simp only [Fits] at hf
    exact (cuts_bytes hf).map (Reads.pure _)
  | .none t =>
    simp only [nodeBytes, Res.ok.injEq] at hb; subst hb
    exact (cuts_u32 _).map (Reads.pure _)
  | .some (v := v) h =>
    simp only [nodeBytes] at hb
    obtain ⟨b1, b2, h1, h2, rfl⟩ := Res.cat_eq_ok hb
    simp only [Res.ok.injEq] at h1; subst h1
    simp only [Fits] at hf
    simp only [Val.depth] at hd
    refine (cuts_u32 _).bind ?_
    exact (cuts_aux h hf (by omega) h2).map (Reads.pure _)
  | .unit =>
    simp only [nodeBytes, Res.ok.injEq] at hb; subst hb
    exact Cuts.pure _
  | .vec (t := t) (vs := vs) (ss := ss) h =>
    simp only [nodeBytes] at hb
    obtain ⟨b1, b2, h1, h2, rfl⟩ := Res.cat_eq_ok hb
    simp only [countBytes, Res.ok.injEq] at h1; subst h1
    simp only [Fits] at hf
    simp only [Val.depth] at hd
    have hr := cutsAll_aux h hf.2 (n := n) (by omega) h2
    have : Cuts (deserialize_seq fun seq => visitVec (deTy env n t) (seq.count + 1) seq)
        (lenBytes vs.length ++ b2) vs (.unit 4 :: piecesList ss) := by
      refine (cuts_u32 _).bind ?_
      rw [UInt32.toNat_ofNat', Nat.mod_eq_of_lt hf.1]
      exact cuts_visitVec hr
    exact this.map (Reads.pure _)
  | .array (t := t) (vs := vs) h =>
    simp only [nodeBytes] at hb
    simp only [Fits] at hf
    simp only [Val.depth] at hd
    have hr := cutsAll_aux h hf (n := n) (by omega) hb
    have := cuts_visitEach hr s!"an array of length {vs.length}" 0 vs.length (by simp)
    exact Cuts.map this (Reads.pure _)
  | .tuple (ts := ts) (vs := vs) h =>
    simp only [nodeBytes] at hb
    simp only [Fits] at hf
    simp only [Val.depth] at hd
    have hr := cutsEach_aux h hf (n := n) (by omega) hb
    have := cuts_visitEach hr s!"a tuple of size {ts.length}" 0 ts.length (by simp)
    exact Cuts.map this (Reads.pure _)
  | .map (k := k) (t := t) (es := es) (ss := ss) hdist h =>
    simp only [nodeBytes] at hb
    obtain ⟨b1, b2, h1, h2, rfl⟩ := Res.cat_eq_ok hb
    simp only [countBytes, Res.ok.injEq] at h1; subst h1
    simp only [Fits] at hf
    simp only [Val.depth] at hd
    have hr := cutsEntries_aux h hf.2 (n := n) (by omega) h2
    have : Cuts (deserialize_map fun acc =>
        visitMap (deTy env n k) (deTy env n t) (acc.count + 1) acc [])
        (lenBytes es.length ++ b2) es (.unit 4 :: piecesEntries ss) := by
      refine (cuts_u32 _).bind ?_
      rw [UInt32.toNat_ofNat', Nat.mod_eq_of_lt hf.1]
      have := cuts_visitMap hr []
      rwa [insertAll_new [] es (by simp) hdist] at this
    exact this.map (Reads.pure _)
  | .opaqueFixed v =>
    rw [← to_bytes_node, to_bytes_fixed, Res.ok.injEq] at hb; subst hb
    exact (cuts_fixed v).map (Reads.pure _)
  | .opaqueVar v =>
    rw [← to_bytes_node, to_bytes_variable, Res.ok.injEq] at hb; subst hb
    simp only [Fits] at hf
    exact (cuts_variable hf).map (Reads.pure _)
  | .signed32 (impl := impl) (i := i) he hv =>
    simp only [signed32_serialize, nodeBytes, Res.ok.injEq] at hb; subst hb
    simp only [Fits] at hf
    have : Cuts (deserialize_i32 (pure : Int32 → De Int32)) _ _ [.unit 4] :=
      (cuts_i32 (impl.as_ref (.variant i []))).map (Reads.pure _)
    refine this.map ?_
    simp only [hf]
    exact Reads.pure _
  | .unitStruct he =>
    simp only [nodeBytes, Res.ok.injEq] at hb; subst hb
    simp only [deTy, he, deDef]
    exact Cuts.pure _
  | .newtypeStruct he h =>
    simp only [nodeBytes] at hb
    simp only [Fits, he] at hf
    simp only [Val.depth, depthList] at hd
    simp only [deTy, he, deDef]
    exact (cuts_aux h hf (by omega) hb).map (Reads.pure _)
  | .tupleStruct (name := name) (ts := ts) he h =>
    simp only [nodeBytes] at hb
    simp only [Fits, he] at hf
    simp only [Val.depth] at hd
    simp only [deTy, he, deDef]
    have hr := cutsEach_aux h hf (n := n) (by omega) hb
    have := cuts_visitEach hr s!"tuple struct {name} with {ts.length} elements" 0 ts.length (by simp)
    exact Cuts.map this (Reads.pure _)
  | .struct (name := name) (fs := fs) he h =>
    simp only [nodeBytes] at hb
    rw [bytesFields_zip _ _ (by simpa using h.length.2)] at hb
    simp only [Fits, he] at hf
    simp only [Val.depth] at hd
    simp only [deTy, he, deDef]
    have hr := cutsEach_aux h hf (n := n) (by omega) hb
    rw [List.map_map] at hr
    have := cuts_visitEach hr s!"struct {name} with {fs.length} elements" 0
      (fs.map (·.1)).length (by simp)
    simp only [SVal.pieces]
    rw [piecesFields_zip _ _ (by simpa using h.length.2)]
    exact Cuts.map this (Reads.pure _)
  | .enumUnit he hv =>
    simp only [nodeBytes] at hb
    simp only [Fits, he] at hf
    simp only [deTy, he, deDef]
    refine Cuts.map (variant_cuts hf.1 hb hv) ?_
    simp only [hv]
    exact Reads.pure _
  | .enumNewtype he hv h =>
    simp only [nodeBytes] at hb
    obtain ⟨b1, b2, h1, h2, rfl⟩ := Res.cat_eq_ok hb
    simp only [Fits, he, hv] at hf
    simp only [Val.depth, depthList] at hd
    simp only [deTy, he, deDef]
    refine Cuts.bind (variant_cuts hf.1 h1 hv) ?_
    simp only [hv]
    exact (cuts_aux h hf.2 (by omega) h2).map (Reads.pure _)
  | .enumTuple (name := name) (vn := vn) (ts := ts) he hv h =>
    simp only [nodeBytes] at hb
    obtain ⟨b1, b2, h1, h2, rfl⟩ := Res.cat_eq_ok hb
    simp only [Fits, he, hv] at hf
    simp only [Val.depth] at hd
    simp only [deTy, he, deDef]
    refine Cuts.bind (variant_cuts hf.1 h1 hv) ?_
    simp only [hv]
    have hr := cutsEach_aux h hf.2 (n := n) (by omega) h2
    have := cuts_visitEach hr s!"tuple variant {name}::{vn} with {ts.length} elements" 0 ts.length
      (by simp)
    exact Cuts.map this (Reads.pure _)
  | .enumStruct (name := name) (vn := vn) (fs := fs) he hv h =>
    simp only [nodeBytes] at hb
    obtain ⟨b1, b2, h1, h2, rfl⟩ := Res.cat_eq_ok hb
    rw [bytesFields_zip _ _ (by simpa using h.length.2)] at h2
    simp only [Fits, he, hv] at hf
    simp only [Val.depth] at hd
    simp only [deTy, he, deDef]
    refine Cuts.bind (qs := piecesFields (zipNames fs _)) (variant_cuts hf.1 h1 hv) ?_
    simp only [hv]
    have hr := cutsEach_aux h hf.2 (n := n) (by omega) h2
    rw [List.map_map] at hr
    have := cuts_visitEach hr s!"struct variant {name}::{vn} with {fs.length} elements" 0
      (fs.map (·.1)).length (by simp)
    rw [piecesFields_zip _ _ (by simpa using h.length.2)]
    exact Cuts.map this (Reads.pure _)
  | .indexerUnit he hv =>
    simp only [Fits, he, hv] at hf
    obtain ⟨⟨idx, hidx, hname⟩, hne, _⟩ := hf
    simp only [hidx, SVal.ofUser, nodeBytes, bytesList_cons, bytesList_nil, Res.cat_nil,
      to_bytes_node, Res.ok.injEq] at hb
    subst hb
    simp only [deTy, he, deDef, hidx, SVal.ofUser, SVal.pieces, piecesList, List.append_nil]
    have h1 : Cuts (deserialize_i32 (pure : Int32 → De Int32)) _ idx [.unit 4] :=
      (cuts_i32 idx).map (Reads.pure _)
    refine Cuts.map (next_cuts (n := 9) h1) ?_
    simp only [hname, findVariant_of hv hne 0, Nat.zero_add]
    exact Reads.pure _
  | .indexer he hv h =>
    simp only [Fits, he, hv] at hf
    obtain ⟨⟨idx, hidx, hname⟩, hne, hlen, hf⟩ := hf
    simp only [Val.depth] at hd
    simp only [hidx, SVal.ofUser, nodeBytes, bytesList_cons] at hb
    obtain ⟨b1, b2, h1, h2, rfl⟩ := Res.cat_eq_ok hb
    simp only [to_bytes_node, nodeBytes, Res.ok.injEq] at h1
    subst h1
    simp only [deTy, he, deDef, hidx, SVal.ofUser, SVal.pieces, piecesList]
    have h1 : Cuts (deserialize_i32 (pure : Int32 → De Int32)) _ idx [.unit 4] :=
      (cuts_i32 idx).map (Reads.pure _)
    refine Cuts.bind (next_cuts (n := 9) h1) ?_
    simp only [hname, findVariant_of hv hne 0, Nat.zero_add]
    have hr := cutsEach_aux h hf (n := n) (by omega) h2
    exact (cuts_visitUnwrap hr 9 (by simpa using hlen)).map (Reads.pure _)
  | .unionUnit he hv =>
    simp only [Fits, he, hv] at hf
    obtain ⟨⟨ts, v, vs', h1, _⟩, _⟩ := hf
    simp at h1
  | .union he hv h =>
    simp only [Fits, he, hv] at hf
    obtain ⟨⟨ts, v, vs', hts, hvs, hlen, hname⟩, hne, hf⟩ := hf
    simp only [Val.depth] at hd
    simp only [nodeBytes] at hb
    have hr := cutsEach_aux h hf (n := n) (by omega) hb
    clear hf hd hb h
    simp only [Option.some.injEq] at hts
    subst hts; subst hvs
    simp only [deTy, he, deDef]
    rw [List.map_cons] at hr
    generalize hps : piecesList _ = ps at hr
    simp only [SVal.pieces, hps]
    cases hr with
    | cons h1 h2 =>
      refine Cuts.bind (next_cuts (n := 9) h1) ?_
      simp only [hname, findVariant_of hv hne 0, Nat.zero_add]
      exact (cuts_visitUnwrap h2 9 (by simpa using hlen)).map (Reads.pure _)

theorem cutsAll_aux {env : Env} {t : Ty} {vs : List Val} {ss : List SVal} :
    PresAll env t vs ss → ∀ {n : Nat} {bs : Bytes}, FitsAll env t vs → depthList vs ≤ n →
      bytesList ss = .ok bs → CutsAll (List.replicate vs.length (deTy env n t)) bs vs (piecesList ss) := by
  intro hp n bs hf hd hb
  match hp with
  | .nil _ => simp at hb; subst hb; exact .nil
  | .cons h hs =>
    simp only [FitsAll] at hf
    simp only [depthList] at hd
    rw [bytesList_cons] at hb
    obtain ⟨b1, b2, h1, h2, rfl⟩ := Res.cat_eq_ok hb
    exact .cons (cuts_aux h hf.1 (by omega) h1) (cutsAll_aux hs hf.2 (by omega) h2)

theorem cutsEach_aux {env : Env} {ts : List Ty} {vs : List Val} {ss : List SVal} :
    PresEach env ts vs ss → ∀ {n : Nat} {bs : Bytes}, FitsEach env ts vs → depthList vs ≤ n →
      bytesList ss = .ok bs → CutsAll (ts.map (deTy env n)) bs vs (piecesList ss) := by
  intro hp n bs hf hd hb
  match hp with
  | .nil => simp at hb; subst hb; exact .nil
  | .cons h hs =>
    simp only [FitsEach] at hf
    simp only [depthList] at hd
    rw [bytesList_cons] at hb
    obtain ⟨b1, b2, h1, h2, rfl⟩ := Res.cat_eq_ok hb
    exact .cons (cuts_aux h hf.1 (by omega) h1) (cutsEach_aux hs hf.2 (by omega) h2)

theorem cutsEntries_aux {env : Env} {k t : Ty} {es : List (Val × Val)}
    {ss : List (SVal × SVal)} :
    PresEntries env k t es ss → ∀ {n : Nat} {bs : Bytes}, FitsEntries env k t es →
      depthEntries es ≤ n → bytesEntries ss = .ok bs →
      CutsEntries (deTy env n k) (deTy env n t) bs es (piecesEntries ss) := by
  intro hp n bs hf hd hb
  match hp with
  | .nil _ _ => 
    simp [bytesEntries, Res.concat] at hb; subst hb; exact .nil
  | .cons h h' hs =>
    simp only [FitsEntries] at hf
    simp only [depthEntries] at hd
    simp only [bytesEntries, List.map_cons, Res.concat] at hb
    rw [Res.cat_assoc] at hb
    obtain ⟨b1, b', h1, h', rfl⟩ := Res.cat_eq_ok hb
    obtain ⟨b2, b3, h2, h3, rfl⟩ := Res.cat_eq_ok h'
    exact .cons (cuts_aux h hf.1 (by omega) h1) (cuts_aux ‹Pres env t _ _› hf.2.1 (by omega) h2)
      (cutsEntries_aux hs hf.2.2 (by omega) h3)
end


end Xdr
