import Verif.Spec.Leaving
import Verif.Proofs.Catching
import Verif.Proofs.Ser
/-! # Lemmas: serializers with the output they leave behind -/

namespace Xdr

/-- What is done does not depend on what was written, which stays; whole words are added. -/
def Appends {α : Type} (k : K α) : Prop :=
  ∀ out, ∃ w, 4 ∣ w.length ∧ ∀ pre, k (pre ++ out) = ((k out).1, pre ++ (out ++ w))

theorem Appends.out {α : Type} {k : K α} (h : Appends k) (out : Bytes) : ∃ w, 4 ∣ w.length ∧ (k out).2 = out ++ w := by
  obtain ⟨w, hw, h⟩ := h out
  exact ⟨w, hw, by have := h []; rw [List.nil_append] at this; rw [this]; rfl⟩

theorem Appends.emit {b : Bytes} (h : 4 ∣ b.length) : Appends (emitK b) := fun _ =>
  ⟨b, h, fun pre => by simp [emitK]⟩

theorem Appends.still {α : Type} (r : Res α) : Appends (fun s => (r, s) : K α) := fun _ =>
  ⟨[], ⟨0, rfl⟩, fun pre => by simp⟩

theorem Appends.bind {α β : Type} {m : K α} {f : α → K β} (hm : Appends m) (hf : ∀ a, Appends (f a)) :
    Appends (m >>= f) := by
  intro out
  obtain ⟨w, hw, h⟩ := hm out
  have h0 : m out = ((m out).1, out ++ w) := by
    have := h []
    simpa using this
  cases hr : (m out).1 with
  | ok a =>
    obtain ⟨w', hw', h'⟩ := hf a (out ++ w)
    refine ⟨w ++ w', by rw [List.length_append]; exact Nat.dvd_add hw hw', fun pre => ?_⟩
    rw [K.bind_def, K.bind_def, h, h0, hr]
    dsimp only
    rw [h' pre, List.append_assoc]
  | err e =>
    refine ⟨w, hw, fun pre => ?_⟩
    rw [K.bind_def, K.bind_def, h, h0, hr]
  | panic e =>
    refine ⟨w, hw, fun pre => ?_⟩
    rw [K.bind_def, K.bind_def, h, h0, hr]
  | depth =>
    refine ⟨w, hw, fun pre => ?_⟩
    rw [K.bind_def, K.bind_def, h, h0, hr]

theorem Appends.attempt {α : Type} {m : K α} (hm : Appends m) : Appends (K.attempt m) := by
  intro out
  obtain ⟨w, hw, h⟩ := hm out
  refine ⟨w, hw, fun pre => ?_⟩
  have h0 : m out = ((m out).1, out ++ w) := by
    have := h []
    simpa using this
  unfold K.attempt
  rw [h, h0]
  cases (m out).1 <;> rfl

theorem bytesK_eq (v : Bytes) : serialize_bytesK v = emitK (opaqueBytes v) := by
  funext out
  simp only [serialize_bytesK, serialize_u32K, K.bind_def, emitK, opaqueBytes, lenBytes]
  split
  · next h =>
    rw [Nat.mod_eq_of_lt h]
    simp [emitK]
  · next h =>
    have : (4 - v.length % 4) % 4 = 0 := by omega
    rw [this]
    simp [Pure.pure, K.pure]

theorem Appends.bytes (v : Bytes) : Appends (serialize_bytesK v) := by
  rw [bytesK_eq]
  refine .emit ?_
  simp only [opaqueBytes, lenBytes, List.length_append, be32_length, List.length_replicate]
  omega

theorem Written.appends {α : Type} {k : K α} (h : Written k) : Appends k := by
  induction h with
  | pure a => exact Appends.still (.ok a)
  | custom msg => exact Appends.still (.err _)
  | panic p => exact Appends.still (.panic p)
  | bind _ _ ih1 ih2 => exact ih1.bind ih2
  | attempt _ ih => exact ih.attempt
  | rethrow r =>
    cases r with
    | ok a => exact Appends.still (.ok a)
    | error e => exact Appends.still (.err e)
  | u32 v => exact .emit ⟨1, rfl⟩
  | i32 v => exact .emit ⟨1, rfl⟩
  | u64 v => exact .emit ⟨2, rfl⟩
  | i64 v => exact .emit ⟨2, rfl⟩
  | bytes v => exact .bytes v
  | index i =>
    simp only [serialize_indexK]
    split
    · exact .emit ⟨1, rfl⟩
    · exact Appends.still (.err _)
  | count len =>
    cases len with
    | none => exact Appends.still (.err _)
    | some n => exact .emit ⟨1, rfl⟩

mutual
theorem SVal.written : (v : SVal) → Written v.serializeK
  | .bool _ => .u32 _
  | .i8 _ => .i32 _
  | .i16 _ => .i32 _
  | .i32 _ => .i32 _
  | .i64 _ => .i64 _
  | .i128 _ => .custom _
  | .u8 _ => .u32 _
  | .u16 _ => .u32 _
  | .u32 _ => .u32 _
  | .u64 _ => .u64 _
  | .u128 _ => .custom _
  | .f32 _ => .u32 _
  | .f64 _ => .u64 _
  | .char _ => .u32 _
  | .str _ => .bytes _
  | .bytes _ => .bytes _
  | .none => .u32 _
  | .some v => .bind (.u32 _) fun _ => v.written
  | .unit => .pure _
  | .unitStruct _ => .pure _
  | .unitVariant _ _ _ => .index _
  | .newtypeStruct _ v => v.written
  | .newtypeVariant _ _ _ v => .bind (.index _) fun _ => v.written
  | .seq _ es => .bind (.count _) fun _ => writtenList es
  | .tuple _ es => writtenList es
  | .tupleStruct _ _ es => writtenList es
  | .tupleVariant _ _ _ _ es => .bind (.index _) fun _ => writtenList es
  | .map _ es => .bind (.count _) fun _ => writtenEntries es
  | .struct _ _ fs => writtenFields fs
  | .structVariant _ _ _ _ fs => .bind (.index _) fun _ => writtenFields fs
  | .fail _ => .custom _
  | .panic _ => .panic _

theorem writtenList : (es : List SVal) → Written (serializeListK es)
  | [] => .pure _
  | v :: vs => .bind v.written fun _ => writtenList vs

theorem writtenEntries : (es : List (SVal × SVal)) → Written (serializeEntriesK es)
  | [] => .pure _
  | (k, v) :: es => .bind k.written fun _ => .bind v.written fun _ => writtenEntries es

theorem writtenFields : (fs : List (String × SVal)) → Written (serializeFieldsK fs)
  | [] => .pure _
  | (_, v) :: fs => .bind v.written fun _ => writtenFields fs
end

/-! ## Without catching -/

theorem forget_bytes_ser (v : Bytes) : (serialize_bytesK v).forget = serialize_bytes v := by
  rw [serialize_bytesK, K.forget_bind, serialize_bytes]
  simp only [K.forget_bind]
  congr 1
  funext _
  congr 1
  funext _
  split <;> rfl

theorem forget_index (i : UInt32) : (serialize_indexK i).forget = (tryIntoI32 i >>= fun x => serialize_i32 x) := by
  rw [serialize_indexK, tryIntoI32]
  split <;> rfl

theorem forget_count (len : Option Nat) : (serialize_countK len).forget = serialize_seq len := by
  cases len <;> rfl

theorem seqM {a : Ser} : (a >>= fun _ => (pure () : Ser)) = a := by
  funext s
  rw [M.bind_run]
  cases a s with
  | ok p => obtain ⟨_, s'⟩ := p; rfl
  | err e => rfl
  | panic e => rfl
  | depth => rfl

mutual
theorem SVal.forget_serializeK : (v : SVal) → v.serializeK.forget = v.serialize
  | .bool v => by simp only [SVal.serializeK, SVal.serialize]; rfl
  | .i8 v => by simp only [SVal.serializeK, SVal.serialize]; rfl
  | .i16 v => by simp only [SVal.serializeK, SVal.serialize]; rfl
  | .i32 v => by simp only [SVal.serializeK, SVal.serialize]; rfl
  | .i64 v => by simp only [SVal.serializeK, SVal.serialize]; rfl
  | .i128 _ => by simp only [SVal.serializeK, SVal.serialize]; rfl
  | .u8 v => by simp only [SVal.serializeK, SVal.serialize]; rfl
  | .u16 v => by simp only [SVal.serializeK, SVal.serialize]; rfl
  | .u32 v => by simp only [SVal.serializeK, SVal.serialize]; rfl
  | .u64 v => by simp only [SVal.serializeK, SVal.serialize]; rfl
  | .u128 _ => by simp only [SVal.serializeK, SVal.serialize]; rfl
  | .f32 v => by simp only [SVal.serializeK, SVal.serialize]; rfl
  | .f64 v => by simp only [SVal.serializeK, SVal.serialize]; rfl
  | .char v => by simp only [SVal.serializeK, SVal.serialize]; rfl
  | .str v => by simp only [SVal.serializeK, SVal.serialize, serialize_str, forget_bytes_ser]
  | .bytes v => by simp only [SVal.serializeK, SVal.serialize, forget_bytes_ser]
  | .none => by simp only [SVal.serializeK, SVal.serialize]; rfl
  | .some v => by
    simp only [SVal.serializeK, SVal.serialize, serialize_some, K.forget_bind, v.forget_serializeK]; rfl
  | .unit => by simp only [SVal.serializeK, SVal.serialize]; rfl
  | .unitStruct _ => by simp only [SVal.serializeK, SVal.serialize]; rfl
  | .unitVariant _ i _ => by simp only [SVal.serializeK, SVal.serialize, forget_index, serialize_unit_variant]
  | .newtypeStruct _ v => by
    simp only [SVal.serializeK, SVal.serialize, serialize_newtype_struct, v.forget_serializeK]
  | .newtypeVariant _ i _ v => by
    simp only [SVal.serializeK, SVal.serialize, serialize_newtype_variant, K.forget_bind, forget_index,
      v.forget_serializeK, M.bind_assoc']
  | .seq len es => by
    simp only [SVal.serializeK, SVal.serialize, K.forget_bind, forget_count, forget_list es, SerializeSeq_end, seqM]; rfl
  | .tuple _ es => by
    simp only [SVal.serializeK, SVal.serialize, forget_list es, SerializeTuple_end, seqM, serialize_tuple]; rfl
  | .tupleStruct _ _ es => by
    simp only [SVal.serializeK, SVal.serialize, forget_list es, SerializeTupleStruct_end, seqM, serialize_tuple_struct]
    rfl
  | .tupleVariant _ i _ _ es => by
    simp only [SVal.serializeK, SVal.serialize, K.forget_bind, forget_index, forget_list es, SerializeTupleVariant_end,
      seqM, serialize_tuple_variant]; rfl
  | .map len es => by
    simp only [SVal.serializeK, SVal.serialize, K.forget_bind, forget_count, forget_entries es, SerializeMap_end, seqM]
    rfl
  | .struct _ _ fs => by
    simp only [SVal.serializeK, SVal.serialize, forget_fields fs, SerializeStruct_end, seqM, serialize_struct]; rfl
  | .structVariant _ i _ _ fs => by
    simp only [SVal.serializeK, SVal.serialize, K.forget_bind, forget_index, forget_fields fs,
      SerializeStructVariant_end, seqM, serialize_struct_variant]; rfl
  | .fail msg => by simp only [SVal.serializeK, SVal.serialize]; rfl
  | .panic p => by simp only [SVal.serializeK, SVal.serialize]; rfl

theorem forget_list : (es : List SVal) → (serializeListK es).forget = forEach (fun m => m) (serializeList es)
  | [] => rfl
  | v :: vs => by
    simp only [serializeListK, serializeList, forEach, K.forget_bind, v.forget_serializeK, forget_list vs]

theorem forget_entries : (es : List (SVal × SVal)) → (serializeEntriesK es).forget =
    forEach (fun (kv : Ser × Ser) => do kv.1; kv.2) (serializeEntries es)
  | [] => rfl
  | (k, v) :: es => by
    simp only [serializeEntriesK, serializeEntries, forEach, K.forget_bind, k.forget_serializeK, v.forget_serializeK,
      forget_entries es, M.bind_assoc']

theorem forget_fields : (fs : List (String × SVal)) → (serializeFieldsK fs).forget =
    forEach (fun (m : String × Ser) => m.2) (serializeFields fs)
  | [] => rfl
  | (_, v) :: fs => by
    simp only [serializeFieldsK, serializeFields, forEach, K.forget_bind, v.forget_serializeK, forget_fields fs]
end

/-! ## What a failure leaves -/

/-- One call after the other. -/
def runParts : List SVal → K Unit
  | [] => pure ()
  | p :: ps => p.serializeK >>= fun _ => runParts ps

theorem kbind_assoc {α β γ : Type} (m : K α) (f : α → K β) (g : β → K γ) :
    (m >>= f) >>= g = m >>= fun a => f a >>= g := by
  funext s
  simp only [K.bind_def]
  rcases m s with ⟨_ | _ | _ | _, r⟩ <;> rfl

theorem kseq {m : K Unit} : (m >>= fun _ => (pure () : K Unit)) = m := by
  funext s
  rw [K.bind_def]
  rcases m s with ⟨_ | _ | _ | _, r⟩ <;> rfl

theorem runParts_append (ps qs : List SVal) : runParts (ps ++ qs) = (runParts ps >>= fun _ => runParts qs) := by
  induction ps with
  | nil => rfl
  | cons p ps ih => rw [List.cons_append, runParts, ih, runParts, kbind_assoc]

theorem countK_seq (len : Option Nat) : (SVal.seq len []).serializeK = serialize_countK len := by
  simp only [SVal.serializeK, serializeListK, kseq]

theorem countK_map (len : Option Nat) : (SVal.map len []).serializeK = serialize_countK len := by
  simp only [SVal.serializeK, serializeEntriesK, kseq]

mutual
theorem SVal.runs_parts : (v : SVal) → v.serializeK = runParts v.parts
  | .bool v | .i8 v | .i16 v | .i32 v | .i64 v | .i128 _ | .u8 v | .u16 v | .u32 v | .u64 v | .u128 _ | .f32 v | .f64 v
  | .char v | .str v | .bytes v | .none | .unit | .unitStruct _ | .unitVariant _ i _ | .fail msg | .panic p => by
    simp only [SVal.parts, runParts, kseq]
  | .some v => by rw [SVal.parts, runParts, ← v.runs_parts]; simp only [SVal.serializeK]
  | .newtypeStruct _ v => by rw [SVal.parts, ← v.runs_parts]; simp only [SVal.serializeK]
  | .newtypeVariant _ i _ v => by rw [SVal.parts, runParts, ← v.runs_parts]; simp only [SVal.serializeK]
  | .seq len es => by rw [SVal.parts, runParts, ← runs_partsList es, countK_seq]; simp only [SVal.serializeK]
  | .tuple _ es => by rw [SVal.parts, ← runs_partsList es]; simp only [SVal.serializeK]
  | .tupleStruct _ _ es => by rw [SVal.parts, ← runs_partsList es]; simp only [SVal.serializeK]
  | .tupleVariant _ i _ _ es => by rw [SVal.parts, runParts, ← runs_partsList es]; simp only [SVal.serializeK]
  | .map len es => by rw [SVal.parts, runParts, ← runs_partsEntries es, countK_map]; simp only [SVal.serializeK]
  | .struct _ _ fs => by rw [SVal.parts, ← runs_partsFields fs]; simp only [SVal.serializeK]
  | .structVariant _ i _ _ fs => by rw [SVal.parts, runParts, ← runs_partsFields fs]; simp only [SVal.serializeK]

theorem runs_partsList : (es : List SVal) → serializeListK es = runParts (partsList es)
  | [] => by rw [serializeListK, partsList, runParts]
  | v :: vs => by rw [serializeListK, partsList, runParts_append, ← v.runs_parts, ← runs_partsList vs]

theorem runs_partsEntries : (es : List (SVal × SVal)) → serializeEntriesK es = runParts (partsEntries es)
  | [] => by rw [serializeEntriesK, partsEntries, runParts]
  | (k, v) :: es => by
    rw [serializeEntriesK, partsEntries, runParts_append, runParts_append, ← k.runs_parts, ← v.runs_parts,
      ← runs_partsEntries es]

theorem runs_partsFields : (fs : List (String × SVal)) → serializeFieldsK fs = runParts (partsFields fs)
  | [] => by rw [serializeFieldsK, partsFields, runParts]
  | (_, v) :: fs => by rw [serializeFieldsK, partsFields, runParts_append, ← v.runs_parts, ← runs_partsFields fs]
end

/-- A call that writes all or nothing. -/
def Sharp (k : K Unit) : Prop :=
  (∃ b, k = emitK b) ∨ (∃ e, k = K.fail e) ∨ ∃ p, k = K.panic p

theorem Sharp.emit (b : Bytes) : Sharp (emitK b) := .inl ⟨b, rfl⟩
theorem Sharp.fail (e : Error) : Sharp (K.fail e) := .inr (.inl ⟨e, rfl⟩)
theorem Sharp.panic (p : PanicSite) : Sharp (K.panic p) := .inr (.inr ⟨p, rfl⟩)

theorem Sharp.pure : Sharp (Pure.pure ()) := .inl ⟨[], by
  funext s
  simp [emitK, Pure.pure, K.pure]⟩

theorem Sharp.index (i : UInt32) : Sharp (serialize_indexK i) := by
  simp only [serialize_indexK]
  split
  · exact .emit _
  · exact .fail _

theorem Sharp.count (len : Option Nat) : Sharp (serialize_countK len) := by
  cases len with
  | none => exact .fail _
  | some n => exact .emit _

mutual
theorem SVal.parts_sharp : (v : SVal) → ∀ p ∈ v.parts, Sharp p.serializeK
  | .bool _ | .i8 _ | .i16 _ | .i32 _ | .i64 _ | .u8 _ | .u16 _ | .u32 _ | .u64 _ | .f32 _ | .f64 _
  | .char _ | .none => by
    simp only [SVal.parts, List.mem_singleton, forall_eq, SVal.serializeK]
    exact .emit _
  | .str _ | .bytes _ => by
    simp only [SVal.parts, List.mem_singleton, forall_eq, SVal.serializeK, bytesK_eq]
    exact .emit _
  | .i128 _ | .u128 _ | .fail _ => by
    simp only [SVal.parts, List.mem_singleton, forall_eq, SVal.serializeK]
    exact .fail _
  | .panic _ => by
    simp only [SVal.parts, List.mem_singleton, forall_eq, SVal.serializeK]
    exact .panic _
  | .unit | .unitStruct _ => by
    simp only [SVal.parts, List.mem_singleton, forall_eq, SVal.serializeK]
    exact .pure
  | .unitVariant _ i _ => by
    simp only [SVal.parts, List.mem_singleton, forall_eq, SVal.serializeK]
    exact .index i
  | .some v => by
    simp only [SVal.parts, List.forall_mem_cons, SVal.serializeK]
    exact ⟨.emit _, v.parts_sharp⟩
  | .newtypeStruct _ v => by rw [SVal.parts]; exact v.parts_sharp
  | .newtypeVariant _ i _ v => by
    simp only [SVal.parts, List.forall_mem_cons, SVal.serializeK]
    exact ⟨.index i, v.parts_sharp⟩
  | .seq len es => by
    simp only [SVal.parts, List.forall_mem_cons, countK_seq]
    exact ⟨.count len, partsList_sharp es⟩
  | .tuple _ es => by rw [SVal.parts]; exact partsList_sharp es
  | .tupleStruct _ _ es => by rw [SVal.parts]; exact partsList_sharp es
  | .tupleVariant _ i _ _ es => by
    simp only [SVal.parts, List.forall_mem_cons, SVal.serializeK]
    exact ⟨.index i, partsList_sharp es⟩
  | .map len es => by
    simp only [SVal.parts, List.forall_mem_cons, countK_map]
    exact ⟨.count len, partsEntries_sharp es⟩
  | .struct _ _ fs => by rw [SVal.parts]; exact partsFields_sharp fs
  | .structVariant _ i _ _ fs => by
    simp only [SVal.parts, List.forall_mem_cons, SVal.serializeK]
    exact ⟨.index i, partsFields_sharp fs⟩

theorem partsList_sharp : (es : List SVal) → ∀ p ∈ partsList es, Sharp p.serializeK
  | [] => by simp [partsList]
  | v :: vs => by
    rw [partsList, List.forall_mem_append]
    exact ⟨v.parts_sharp, partsList_sharp vs⟩

theorem partsEntries_sharp : (es : List (SVal × SVal)) → ∀ p ∈ partsEntries es, Sharp p.serializeK
  | [] => by simp [partsEntries]
  | (k, v) :: es => by
    rw [partsEntries, List.forall_mem_append, List.forall_mem_append]
    exact ⟨k.parts_sharp, v.parts_sharp, partsEntries_sharp es⟩

theorem partsFields_sharp : (fs : List (String × SVal)) → ∀ p ∈ partsFields fs, Sharp p.serializeK
  | [] => by simp [partsFields]
  | (_, v) :: fs => by
    rw [partsFields, List.forall_mem_append]
    exact ⟨v.parts_sharp, partsFields_sharp fs⟩
end

theorem to_bytesK_forget (v : SVal) : to_bytesK v.serializeK = to_bytes v := by
  rw [to_bytes_eq, ← v.forget_serializeK, to_bytesK, outBytes, K.forget]
  rcases v.serializeK [] with ⟨_ | _ | _ | _, r⟩ <;> rfl

/-- What running calls one after the other does when each writes all or nothing. -/
theorem runParts_left (ps : List SVal) (hp : ∀ p ∈ ps, Sharp p.serializeK) (out : Bytes) :
    (∃ bs : List Bytes, ps.map to_bytes = bs.map Res.ok ∧ runParts ps out = (.ok (), out ++ bs.flatten)) ∨
    ∃ (done : List SVal) (p : SVal) (rest : List SVal) (bs : List Bytes), ps = done ++ p :: rest ∧ done.map to_bytes = bs.map Res.ok ∧
      ((∃ e, to_bytes p = .err e ∧ runParts ps out = (.err e, out ++ bs.flatten)) ∨
        ∃ x, to_bytes p = .panic x ∧ runParts ps out = (.panic x, out ++ bs.flatten)) := by
  induction ps generalizing out with
  | nil => exact .inl ⟨[], rfl, by simp [runParts, Pure.pure, K.pure]⟩
  | cons p ps ih =>
    rw [List.forall_mem_cons] at hp
    have hb := to_bytesK_forget p
    rcases hp.1 with ⟨b, h⟩ | ⟨e, h⟩ | ⟨x, h⟩
    · have hb : to_bytes p = .ok b := by rw [← hb, h]; simp [to_bytesK, emitK]
      have hr : runParts (p :: ps) out = runParts ps (out ++ b) := by rw [runParts, K.bind_def, h]; rfl
      rw [hr]
      rcases ih hp.2 (out ++ b) with ⟨bs, h1, h2⟩ | ⟨done, q, rest, bs, h1, h2, h3⟩
      · exact .inl ⟨b :: bs, by simp [hb, h1], by rw [h2]; simp⟩
      · refine .inr ⟨p :: done, q, rest, b :: bs, by rw [h1]; rfl, by simp [hb, h2], ?_⟩
        rw [List.flatten_cons, ← List.append_assoc]
        exact h3
    · exact .inr ⟨[], p, ps, [], rfl, rfl, .inl ⟨e, by rw [← hb, h]; rfl, by
        rw [runParts, K.bind_def, h]; simp [K.fail]⟩⟩
    · exact .inr ⟨[], p, ps, [], rfl, rfl, .inr ⟨x, by rw [← hb, h]; rfl, by
        rw [runParts, K.bind_def, h]; simp [K.panic]⟩⟩

end Xdr
