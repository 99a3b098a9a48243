import Verif.Proofs.Stops
/-! # What `Wire.Stops` lists happens -/

namespace Xdr.Wire

/-- The two motives of the inductions below. -/
def GivesUp (env : Env) (t : Ty) (b : Bytes) (p : Stop) : Prop := ∃ n, deTy env n t b = p.res

def GivesUpIn (env : Env) (ts : List Ty) (b : Bytes) (p : Stop) : Prop :=
  ∃ n, readAll (ts.map (deTy env n)) b = p.res

theorem enum_run (name : String) (variants : List String) (d : De Val) :
    deserialize_enum name variants d = d := rfl

theorem led_by_word {env : Env} {t : Ty} {b : Bytes} (ht : LedByWord env t) (hl : b.length < 4) :
    deTy env 1 t b = .err (.notEnoughData (4 - b.length)) := by
  have h1 := read_u32_lt hl
  have h2 : read_i32 b = .err (.notEnoughData (4 - b.length)) := by rw [read_i32_eq]; exact M.bind_err h1
  have h3 : deserialize_i32 (pure : Int32 → De Int32) b = .err (.notEnoughData (4 - b.length)) :=
    M.bind_err h2
  cases t with
  | bool => exact M.bind_err h1
  | i8 => exact M.bind_err h2
  | i16 => exact M.bind_err h2
  | i32 => exact M.bind_err h2
  | u8 => exact M.bind_err h1
  | u16 => exact M.bind_err h1
  | u32 => exact M.bind_err h1
  | f32 => exact M.bind_err h1
  | char => exact M.bind_err (M.bind_err h1)
  | string => exact M.bind_err (read_string_lt hl)
  | bytes => exact M.bind_err (read_bytes_lt hl)
  | opaqueVar => exact M.bind_err (variable_deserialize_lt hl)
  | option t => exact M.bind_err h1
  | vec t => rw [deTy_vec]; exact M.bind_err h1
  | map k v => rw [deTy_map]; exact M.bind_err h1
  | signed32 name impl => exact M.bind_err h3
  | named name =>
    rcases ht with ⟨vars, he⟩ | ⟨vars, impl, he⟩
    · simp only [deTy, he, deDef]
      rw [enum_run]
      exact M.bind_err (M.bind_err h2)
    · simp only [deTy, he, deDef, deserialize_tuple, visitIndexer]
      have e : ∀ d : De Int32, Seq.next_element { count := 10 } d =
          (d >>= fun v => Pure.pure (some v, { count := 9 })) := fun _ => rfl
      rw [e, M.bind_assoc']
      exact M.bind_err h3
  | i64 => exact ht.elim
  | u64 => exact ht.elim
  | f64 => exact ht.elim
  | unit => exact ht.elim
  | array _ _ => exact ht.elim
  | tuple _ => exact ht.elim
  | opaqueFixed _ => exact ht.elim

theorem gives_up_of_stops {env : Env} {t : Ty} {b : Bytes} {p : Stop} (hb : Stops env t b p) :
    GivesUp env t b p := by
  apply Stops.rec (env := env) (motive_1 := fun t b p _ => GivesUp env t b p)
    (motive_2 := fun ts b p _ => GivesUpIn env ts b p) (t := hb)
  case inWord =>
    intro t b ht hl
    exact ⟨1, led_by_word ht hl⟩
  case inDword =>
    intro t b ht hl
    refine ⟨1, ?_⟩
    rcases ht with rfl | rfl | rfl
    · refine bind_stop ?_
      rw [read_i64_eq]
      exact bind_stop (by rw [read_u64_lt hl]; rfl)
    · exact bind_stop (by rw [read_u64_lt hl]; rfl)
    · exact bind_stop (by rw [read_f64_eq, read_u64_lt hl]; rfl)
  case char =>
    intro k rest hk hc
    refine ⟨1, bind_stop ?_⟩
    rw [read_char, M.bind_ok (run_u32 hk _)]
    have : charFromU32 (UInt32.ofNat k) = none := by
      unfold charFromU32
      split
      · rename_i h
        exact absurd (reads_word hk).2 (hc ⟨UInt32.ofNat k, h⟩)
      · rfl
    simp only [this]
    rfl
  case stringCut =>
    intro k b hk hl
    refine ⟨1, bind_stop ?_⟩
    simp only [word, beBytes4, be32, List.cons_append, List.nil_append]
    rw [read_string_run _ _ _ _ _ k (by rw [ofBe32_be32, (reads_word hk).2]), if_pos hl]
    rfl
  case stringFaulty =>
    intro b rest e hk hf
    refine ⟨1, bind_stop ?_⟩
    simp only [word, beBytes4, be32, List.cons_append, List.nil_append]
    rw [read_string_run _ _ _ _ _ b.length (by rw [ofBe32_be32, (reads_word hk).2]), if_neg (by simp)]
    rw [List.take_append_of_le_length (Nat.le_refl _), List.take_length]
    cases hd : utf8Decode b with
    | none => simp only [hf.unique (utf8Fault_spec hd)]; rfl
    | some s =>
      exfalso
      have := validation_iff.mpr hf
      rw [validation_none.mpr ⟨s, hd⟩] at this
      simp at this
  case bytesCut =>
    intro k b hk hl
    refine ⟨1, bind_stop ?_⟩
    simp only [word, beBytes4, be32, List.cons_append, List.nil_append]
    rw [read_bytes_run _ _ _ _ _ k (by rw [ofBe32_be32, (reads_word hk).2]), if_pos hl]
    rfl
  case opaqueVar =>
    intro k b hk hl
    refine ⟨1, bind_stop ?_⟩
    simp only [word, beBytes4, be32, List.cons_append, List.nil_append]
    rw [variable_deserialize_run _ _ _ _ _ k (by rw [ofBe32_be32, (reads_word hk).2]),
      if_pos (by rw [padLen_add]; exact hl)]
    rfl
  case opaqueFixed =>
    intro k b hl
    refine ⟨1, bind_stop ?_⟩
    rw [fixed_deserialize_run, if_pos (by rw [padLen_add]; exact hl)]
    rfl
  case string => intro s q h1 h2; exact ⟨1, bind_stop (break_string h1 h2)⟩
  case bytes => intro b q h1 h2; exact ⟨1, bind_stop (break_bytes h1 h2)⟩
  case some =>
    rintro t k b p hk h0 _ ⟨n, hr⟩
    refine ⟨n + 1, ?_⟩
    simp only [deTy, deserialize_option]
    rw [M.bind_ok (run_u32 hk _), if_neg (by simpa [← UInt32.toNat_inj, (reads_word hk).2] using h0)]
    exact bind_stop hr
  case vec =>
    rintro t k b p hk _ ⟨n, hr⟩
    refine ⟨n + 1, ?_⟩
    rw [deTy_vec, M.bind_ok (run_u32 hk _), (reads_word hk).2]
    rw [List.map_replicate] at hr
    exact bind_stop hr
  case array =>
    rintro t k b p _ ⟨n, hr⟩
    refine ⟨n + 1, ?_⟩
    rw [deTy_array]
    rw [List.map_replicate] at hr
    exact bind_stop hr
  case tuple =>
    rintro ts b p _ ⟨n, hr⟩
    refine ⟨n + 1, ?_⟩
    rw [deTy_tuple]
    exact bind_stop hr
  case map =>
    rintro a c k b p hk _ ⟨n, hr⟩
    refine ⟨n + 1, ?_⟩
    rw [deTy_map, M.bind_ok (run_u32 hk _), (reads_word hk).2]
    exact bind_stop (readPairs_stop hr)
  case signed32 =>
    intro name impl k rest p hk h
    refine ⟨1, ?_⟩
    have h1 : Reads (deserialize_i32 (pure : Int32 → De Int32)) (word k) (Int32.ofNat k) :=
      (reads_word_i32 hk).map (Reads.pure _)
    simp only [deTy, signed32_deserialize]
    rw [M.bind_ok (h1 rest)]
    simp only [h]
    rfl
  case signed32Err =>
    intro name impl k rest e hk h
    refine ⟨1, ?_⟩
    have h1 : Reads (deserialize_i32 (pure : Int32 → De Int32)) (word k) (Int32.ofNat k) :=
      (reads_word_i32 hk).map (Reads.pure _)
    simp only [deTy, signed32_deserialize]
    rw [M.bind_ok (h1 rest)]
    simp only [h]
    rfl
  case undefined =>
    intro name b he
    refine ⟨1, ?_⟩
    simp only [deTy, he]
    rfl
  case newtypeStruct =>
    rintro name t b p he _ ⟨n, hr⟩
    refine ⟨n + 1, ?_⟩
    simp only [deTy, he, deDef]
    exact bind_stop hr
  case tupleStruct =>
    rintro name ts b p he _ ⟨n, hr⟩
    refine ⟨n + 1, ?_⟩
    simp only [deTy, he, deDef, deserialize_tuple_struct]
    rw [visitEach_eq _ _ _ _ (by simp)]
    exact bind_stop hr
  case struct =>
    rintro name fs b p he _ ⟨n, hr⟩
    refine ⟨n + 1, ?_⟩
    simp only [deTy, he, deDef, deserialize_struct]
    rw [visitEach_eq _ _ _ _ (by simp)]
    rw [List.map_map] at hr
    exact bind_stop hr
  case enum =>
    rintro name vn vars i sh b p he hi hv _ ⟨n, hr⟩
    refine ⟨n + 1, ?_⟩
    simp only [deTy, he, deDef]
    rw [enum_run]
    have hs : Enum_variant_seed (variantIndex vars.length) (word i ++ b) = .ok (i, b) :=
      reads_seed hi hv b
    refine bind_eq_stop.mpr (.inr ⟨i, b, hs, ?_⟩)
    clear hs hi
    cases sh with
    | unit =>
      simp [Shape.types, readAll] at hr
    | newtype t =>
      simp only [hv]
      simp only [Shape.types, List.map_cons, List.map_nil, readAll] at hr
      rcases bind_eq_stop.mp hr with h1 | ⟨_, _, _, h2⟩
      · exact bind_stop h1
      · simp at h2
    | tuple ts =>
      simp only [hv]
      simp only [Enum_tuple_variant, deserialize_tuple]
      rw [visitEach_eq _ _ _ _ (by simp)]
      exact bind_stop hr
    | struct fs =>
      simp only [hv]
      simp only [Enum_struct_variant, deserialize_tuple]
      rw [visitEach_eq _ _ _ _ (by simp)]
      simp only [Shape.types] at hr
      rw [List.map_map] at hr
      exact bind_stop hr
  case enumNegative =>
    intro name vars k rest he h1 hk
    refine ⟨1, ?_⟩
    simp only [deTy, he, deDef]
    rw [enum_run]
    refine bind_stop ?_
    rw [Enum_variant_seed, M.bind_ok (reads_word_i32 hk rest), if_pos]
    · rfl
    · rw [toInt_ofNat hk, if_neg (by omega)]; omega
  case enumUnknown =>
    intro name vars k rest he hk hl
    have hk' : k < 2 ^ 32 := by omega
    refine ⟨1, ?_⟩
    simp only [deTy, he, deDef]
    rw [enum_run]
    refine bind_stop ?_
    have ht := toInt_ofNat hk'
    rw [if_pos hk] at ht
    rw [Enum_variant_seed, M.bind_ok (reads_word_i32 hk' rest), if_neg (by omega), ht, Int.toNat_natCast,
      variantIndex, if_neg (by omega)]
    rfl
  case indexerErr =>
    intro name vars impl k rest e he hk h
    refine ⟨1, ?_⟩
    simp only [deTy, he, deDef, deserialize_tuple]
    rw [indexer_run hk, h]; rfl
  case indexerUser =>
    intro name vars impl k rest p he hk h
    refine ⟨1, ?_⟩
    simp only [deTy, he, deDef, deserialize_tuple]
    rw [indexer_run hk, h]; rfl
  case indexerName =>
    intro name vn vars impl k rest he hk hn h
    refine ⟨1, ?_⟩
    simp only [deTy, he, deDef, deserialize_tuple]
    rw [indexer_run hk, hn]
    simp only [findVariant_missing.mpr h]
    rfl
  case indexer =>
    rintro name vn vars impl k i fs b p he hk hn hc _ ⟨n, hr⟩
    refine ⟨n + 1, ?_⟩
    simp only [deTy, he, deDef, deserialize_tuple]
    rw [indexer_run hk, hn]
    simp only [findVariant_of hc.1 hc.2 0]
    cases fs with
    | none => simp [readAll] at hr
    | some ts => exact bind_stop (unwrap_stop hr)
  case indexerMany =>
    intro name vn vars impl k i fs vs b rest he hk hn hc hl hf
    obtain ⟨n, hr⟩ := readsAll_of_forms hf
    refine ⟨n + 1, ?_⟩
    simp only [deTy, he, deDef, deserialize_tuple]
    rw [indexer_run hk, hn]
    simp only [findVariant_of hc.1 hc.2 0]
    cases fs with
    | none => simp at hl
    | some ts => exact bind_stop (unwrap_many hr hl)
  case unionDisc =>
    rintro name disc vars impl b p he _ ⟨n, hr⟩
    refine ⟨n + 1, ?_⟩
    simp only [deTy, he, deDef, deserialize_tuple, visitUnion]
    have e : ∀ d : De Val, Seq.next_element { count := 10 } d =
        (d >>= fun v => Pure.pure (some v, { count := 9 })) := fun _ => rfl
    rw [e, M.bind_assoc']
    exact bind_stop hr
  case unionErr =>
    intro name disc vars impl v b rest e he hf h
    obtain ⟨n, hr⟩ := reads_of_form hf
    refine ⟨n + 1, ?_⟩
    simp only [deTy, he, deDef, deserialize_tuple]
    rw [union_run hr, h]; rfl
  case unionUser =>
    intro name disc vars impl v b rest p he hf h
    obtain ⟨n, hr⟩ := reads_of_form hf
    refine ⟨n + 1, ?_⟩
    simp only [deTy, he, deDef, deserialize_tuple]
    rw [union_run hr, h]; rfl
  case unionName =>
    intro name vn disc vars impl v b rest he hf hn h
    obtain ⟨n, hr⟩ := reads_of_form hf
    refine ⟨n + 1, ?_⟩
    simp only [deTy, he, deDef, deserialize_tuple]
    rw [union_run hr, hn]
    simp only [findVariant_missing.mpr h]
    rfl
  case union =>
    rintro name vn disc d0 vars impl i ts v b c p he hf hn hc _ ⟨n2, hr2⟩
    obtain ⟨n1, hr1⟩ := reads_of_form hf
    have hr1 := Reads_mono hr1 (Nat.le_max_left n1 n2)
    have hr2 := readAll_stop_mono hr2 (Nat.le_max_right n1 n2)
    refine ⟨max n1 n2 + 1, ?_⟩
    simp only [deTy, he, deDef, deserialize_tuple]
    rw [union_run hr1, hn]
    simp only [findVariant_of hc.1 hc.2 0]
    exact bind_stop (unwrap_stop hr2)
  case unionMany =>
    intro name vn disc d0 vars impl i ts v vs b c rest he hf hn hc hl hf2
    obtain ⟨n1, hr1⟩ := reads_of_form hf
    obtain ⟨n2, hr2⟩ := readsAll_of_forms hf2
    have hr1 := Reads_mono hr1 (Nat.le_max_left n1 n2)
    have hr2 := ReadsAll_mono hr2 (Nat.le_max_right n1 n2)
    refine ⟨max n1 n2 + 1, ?_⟩
    simp only [deTy, he, deDef, deserialize_tuple]
    rw [union_run hr1, hn]
    simp only [findVariant_of hc.1 hc.2 0]
    exact bind_stop (unwrap_many hr2 hl)
  case here =>
    rintro t ts b p _ ⟨n, hr⟩
    refine ⟨n, ?_⟩
    rw [List.map_cons, readAll]
    exact bind_stop hr
  case later =>
    rintro t ts v bs b p hf _ ⟨n2, hr2⟩
    obtain ⟨n1, hr1⟩ := reads_of_form hf
    have hr1 := Reads_mono hr1 (Nat.le_max_left n1 n2)
    have hr2 := readAll_stop_mono hr2 (Nat.le_max_right n1 n2)
    refine ⟨max n1 n2, ?_⟩
    rw [List.map_cons, readAll, M.bind_ok (hr1 _)]
    exact bind_stop hr2

/-! ## Programs whose own code does not panic -/

theorem called_ok {env : Env} {text : Bool} {vars : List (String × Option (List Ty))} {vn : String} {i : Nat}
    {fs : Option (List Ty)} (h : ∀ t ∈ vars.flatMap fun v => v.2.getD [], t.Ok env text)
    (hc : Called vars vn i fs) : ∀ t ∈ fs.getD [], t.Ok env text := fun t ht =>
  h t (List.mem_flatMap.mpr ⟨_, List.mem_of_getElem? hc.1, ht⟩)

theorem stops_padding {env : Env} (henv : EnvOk env true) {t : Ty} {b : Bytes} {p : Stop}
    (hb : Stops env t b p) : t.Ok env true →
    ∀ q, p = .panic q → q = .paddingSlice := by
  apply Stops.rec (env := env) (motive_1 := fun t _ p _ => t.Ok env true → ∀ q, p = .panic q → q = .paddingSlice)
    (motive_2 := fun ts _ p _ => (∀ t ∈ ts, t.Ok env true) →
      ∀ q, p = .panic q → q = .paddingSlice) (t := hb)
  case string => intro _ _ _ _ _ q h; cases h; rfl
  case bytes => intro _ _ _ _ _ q h; cases h; rfl
  case inWord => intro _ _ _ _ _ q h; cases h
  case inDword => intro _ _ _ _ _ q h; cases h
  case char => intro _ _ _ _ _ q h; cases h
  case stringCut => intro _ _ _ _ _ q h; cases h
  case stringFaulty => intro _ _ _ _ _ _ q h; cases h
  case bytesCut => intro _ _ _ _ _ q h; cases h
  case opaqueVar => intro _ _ _ _ _ q h; cases h
  case opaqueFixed => intro _ _ _ _ q h; cases h
  case signed32Err => intro _ _ _ _ _ _ _ _ q h; cases h
  case enumNegative => intro _ _ _ _ _ _ _ _ q h; cases h
  case enumUnknown => intro _ _ _ _ _ _ _ _ q h; cases h
  case indexerErr => intro _ _ _ _ _ _ _ _ _ _ q h; cases h
  case unionErr => intro _ _ _ _ _ _ _ _ _ _ _ _ q h; cases h
  case some =>
    intro t k b p _ _ _ ih ht
    simp only [Ty.Ok] at ht
    exact ih ht
  case vec =>
    intro t k b p _ _ ih ht
    simp only [Ty.Ok] at ht
    exact ih fun t h => (List.eq_of_mem_replicate h) ▸ ht
  case array =>
    intro t k b p _ ih ht
    simp only [Ty.Ok] at ht
    exact ih fun t h => (List.eq_of_mem_replicate h) ▸ ht
  case tuple =>
    intro ts b p _ ih ht
    simp only [Ty.Ok, tysOk_iff] at ht
    exact ih ht
  case map =>
    intro a c k b p _ _ ih ht
    simp only [Ty.Ok] at ht
    refine ih fun t h => ?_
    obtain ⟨l, h1, h2⟩ := List.mem_flatten.mp h
    rw [List.eq_of_mem_replicate h1] at h2
    simp only [List.mem_cons, List.not_mem_nil, or_false] at h2
    rcases h2 with rfl | rfl
    · exact ht.1
    · exact ht.2
  case signed32 =>
    intro name impl k rest p _ h ht
    simp only [Ty.Ok] at ht
    rcases ht (Int32.ofNat k) with ⟨v, h'⟩ | ⟨v, h'⟩ <;> rw [h'] at h <;> simp at h
  case undefined => intro name b he ht; simp [Ty.Ok, he] at ht
  case newtypeStruct =>
    intro name t b p he _ ih _
    have h1 := (henv _ _ he).1
    simp only [Def.types, tysOk_iff, List.mem_singleton] at h1
    exact ih (h1 _ rfl)
  case tupleStruct =>
    intro name ts b p he _ ih _
    have h1 := (henv _ _ he).1
    simp only [Def.types, tysOk_iff] at h1
    exact ih h1
  case struct =>
    intro name fs b p he _ ih _
    have h1 := (henv _ _ he).1
    simp only [Def.types, tysOk_iff] at h1
    exact ih h1
  case enum =>
    intro name vn vars i sh b p he _ hv _ ih _
    have h1 := (henv _ _ he).1
    simp only [Def.types, tysOk_iff] at h1
    exact ih fun t ht => h1 t (List.mem_flatMap.mpr ⟨_, List.mem_of_getElem? hv, ht⟩)
  case indexerUser =>
    intro name vars impl k rest p he _ h _
    rcases (henv _ _ he).2.1 (Int32.ofNat k) with ⟨v, h', _⟩ | ⟨v, h'⟩ <;> rw [h'] at h <;> simp at h
  case indexerName =>
    intro name vn vars impl k rest he _ hn h _
    rcases (henv _ _ he).2.1 (Int32.ofNat k) with ⟨v, h', hm⟩ | ⟨v, h'⟩ <;> rw [h'] at hn
    · simp only [Res.ok.injEq] at hn
      obtain ⟨x, hx, e⟩ := List.mem_map.mp hm
      exact absurd (e.trans hn) (h x hx)
    · simp at hn
  case indexer =>
    intro name vn vars impl k i fs b p he _ _ hc _ ih _
    have h1 := (henv _ _ he).1
    simp only [Def.types, tysOk_iff] at h1
    exact ih fun t ht => called_ok h1 hc t (List.mem_of_mem_take ht)
  case indexerMany =>
    intro name vn vars impl k i fs vs b rest he _ _ hc hl _ _
    have := (henv _ _ he).2.2 _ (List.mem_of_getElem? hc.1)
    simp only at this
    omega
  case unionDisc =>
    intro name disc vars impl b p he _ ih _
    have h1 := (henv _ _ he).1
    simp only [Def.types, tysOk_iff] at h1
    exact ih (h1 _ (List.mem_cons_self ..))
  case unionUser =>
    intro name disc vars impl v b rest p he hf h _
    obtain ⟨n, hf⟩ := reads_of_form hf
    rcases (henv _ _ he).2.1 n b v hf.returned with ⟨v, h', _⟩ | ⟨v, h'⟩ <;> rw [h'] at h <;> simp at h
  case unionName =>
    intro name vn disc vars impl v b rest he hf hn h _
    obtain ⟨n, hf⟩ := reads_of_form hf
    rcases (henv _ _ he).2.1 n b v hf.returned with ⟨v, h', hm⟩ | ⟨v, h'⟩ <;> rw [h'] at hn
    · simp only [Res.ok.injEq] at hn
      obtain ⟨x, hx, e⟩ := List.mem_map.mp hm
      exact absurd (e.trans hn) (h x hx)
    · simp at hn
  case union =>
    intro name vn disc d0 vars impl i ts v b c p he _ _ hc _ ih _
    have h1 := (henv _ _ he).1
    simp only [Def.types, tysOk_iff, List.mem_cons, forall_eq_or_imp] at h1
    exact ih fun t ht => called_ok h1.2 hc t (List.mem_cons_of_mem _ (List.mem_of_mem_take ht))
  case unionMany =>
    intro name vn disc d0 vars impl i ts v vs b c rest he _ _ hc hl _ _
    have := (henv _ _ he).2.2 _ (List.mem_of_getElem? hc.1)
    simp only [Option.getD_some, List.length_cons] at this
    omega
  case here =>
    intro t ts b p _ ih ht
    exact ih (ht _ (List.mem_cons_self ..))
  case later =>
    intro t ts v bs b p _ _ ih ht
    exact ih fun t h => ht t (List.mem_cons_of_mem _ h)

end Xdr.Wire
