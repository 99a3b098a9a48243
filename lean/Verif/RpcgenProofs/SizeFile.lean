import Verif.RpcgenProofs.SizeUnion
import Verif.RpcgenProofs.Printable
/-!
# How long the generated source is
-/

namespace Xdr.Rpcgen

variable {ds : List Definition} {cfg : Config}

/-- Each constant has a name. -/
theorem constants_count (hwf : WellFormed ds) {cs : List ConstItem}
    (h : constants_token (setup_context ds cfg) = .ok cs) : cs.length ≤ atomsSize (atoms ds) := by
  unfold constants_token at h
  rw [← (GR.mapM_ok.1 h).length_eq]
  clear h
  simp only [setup_context]
  induction ds with
  | nil => simp
  | cons d ds ih =>
    have h1 := ih (wf_cons hwf).2
    have h2 := (wf_cons hwf).1
    rw [atomsSize_cons_def, List.filterMap_cons]
    cases d with
    | constant a =>
      have := assign_pos (a := a) h2
      simp only [List.length_cons, Definition.atoms]
      omega
    | _ => exact Nat.le_trans h1 (Nat.le_add_left _ _)

/-- What the types of a context take in the file. -/
def typedefsSize : List (Str × TypeDef) → Nat
  | [] => 0
  | p :: l => atomsSize p.2.atoms + typedefsSize l

theorem typedefsSize_append (a b : List (Str × TypeDef)) :
    typedefsSize (a ++ b) = typedefsSize a + typedefsSize b := by
  induction a with
  | nil => simp [typedefsSize]
  | cons x xs ih => simp only [List.cons_append, typedefsSize, ih]; omega

theorem typedefsSize_le (ds : List Definition) :
    typedefsSize (setup_context ds cfg).typedefs ≤ atomsSize (atoms ds) := by
  induction ds with
  | nil => simp [setup_context, typedefsSize]
  | cons d ds ih =>
    rw [setup_typedefs_cons, typedefsSize_append, atomsSize_cons_def]
    have : typedefsSize (setup_context [d] cfg).typedefs ≤ atomsSize d.atoms := by
      cases d with
      | type td =>
        cases td with
        | declaration e =>
          simp only [setup_context, List.filterMap_cons, List.filterMap_nil]
          cases hn : e.name with
          | none => simp [typedefsSize]
          | some s => simp [typedefsSize, Definition.atoms]
        | _ => simp [setup_context, typedefsSize, Definition.atoms]
      | _ => simp [setup_context, typedefsSize]
    omega

/-- What a variant can come to. -/
abbrev unit (ds : List Definition) : Nat := 12 * nameBound ds + 2 * typeBound ds + 2000

theorem weights_flatMap {α : Type} {f : α → List Token} {l : List α} {m v : Nat} (hl : l.length ≤ v)
    (h : ∀ x ∈ l, weights (f x) ≤ m) : weights (l.flatMap f) ≤ v * m := by
  refine Nat.le_trans ?_ (Nat.mul_le_mul_right m hl)
  clear hl
  induction l with
  | nil => simp [weights_nil]
  | cons x xs ih =>
    have h1 := ih fun y hy => h y (by simp [hy])
    have h2 := h x (by simp)
    rw [List.flatMap_cons, weights_append, List.length_cons, Nat.add_mul]
    omega

theorem typeToken_size (hwf : WellFormed ds) {b n : Nat} (hrt : cfg.remove_typedef = true)
    (hbe : cfg.enum_complement_index = true → ∀ c, .number c ∈ atoms ds → c.number ≤ (b : Int))
    (hbu : cfg.union_complement_index = true → ∀ c, .number c ∈ atoms ds → c.number ≤ (b : Int))
    {name : Str} {d : TypeDef} (hm : (name, d) ∈ (setup_context ds cfg).typedefs) {l : List Item}
    (h : typeToken (setup_context ds cfg) n name d = .ok l) :
    weights (l.flatMap Item.tokens) ≤ atomsSize d.atoms * (4 * (b + 1) * unit ds) := by
  obtain ⟨h1, -, h2, h3, h4⟩ := typedef_def hm
  cases d with
  | declaration e =>
    have : (setup_context ds cfg).config.remove_typedef = true := hrt
    simp only [typeToken, this, if_true] at h
    cases h
    simp [weights_nil]
  | enum s as =>
    cases h2 _ _ rfl
    simp only [typeToken, GR.bind_eq_ok] at h
    obtain ⟨e, he, h⟩ := h
    cases h
    obtain ⟨h5, h6⟩ := enum_fits hwf hbe h1 he
    have h7 := h5.weights
    simp only [List.flatMap_cons, List.flatMap_nil, List.append_nil, Item.tokens]
    refine Nat.le_trans h7 ?_
    have h8 : as.length * (b + 1) + 1 ≤ atomsSize (TypeDef.enum name as).atoms * (b + 1) := by
      have := Nat.mul_le_mul_right (b + 1) h6
      rw [Nat.add_mul] at this
      omega
    calc _ ≤ (atomsSize (TypeDef.enum name as).atoms * (b + 1)) * (4 * unit ds) :=
          Nat.mul_le_mul h8 (by simp only [unit]; omega)
      _ = _ := by
        rw [Nat.mul_assoc, ← Nat.mul_assoc (b + 1), Nat.mul_comm (b + 1) 4]
  | struct s ms =>
    cases h3 _ _ rfl
    simp only [typeToken, GR.bind_eq_ok] at h
    obtain ⟨e, he, h⟩ := h
    cases h
    obtain ⟨h5, h6⟩ := struct_fits hwf h1 he
    have h7 := h5.weights
    simp only [List.flatMap_cons, List.flatMap_nil, List.append_nil, Item.tokens]
    refine Nat.le_trans h7 (Nat.mul_le_mul h6 ?_)
    refine Nat.le_trans (m := 1 * unit ds) (by simp only [unit]; omega) (Nat.mul_le_mul_right _ (by omega))
  | union s body =>
    cases h4 _ _ rfl
    simp only [typeToken, GR.bind_eq_ok] at h
    obtain ⟨e, he, h⟩ := h
    cases h
    obtain ⟨h5, h6⟩ := union_fits hwf hbu h1 he
    have hw : labelCount body + 2 ≤ labelCount body * (b + 1) + 3 := by
      have : labelCount body ≤ labelCount body * (b + 1) := Nat.le_mul_of_pos_right _ (by omega)
      omega
    have h7 := h5.weights hw
    simp only [List.flatMap_cons, List.flatMap_nil, List.append_nil, Item.tokens]
    refine Nat.le_trans h7 ?_
    have h8 : labelCount body * (b + 1) + 3 + 1 ≤ atomsSize (TypeDef.union name body).atoms * (4 * (b + 1)) := by
      have := Nat.mul_le_mul_right (4 * (b + 1)) h6
      rw [Nat.add_mul, ← Nat.mul_assoc, Nat.mul_comm (labelCount body) 4, Nat.mul_assoc] at this
      omega
    rw [← Nat.mul_assoc]
    exact Nat.mul_le_mul_right _ h8

theorem types_size (hwf : WellFormed ds) {b n : Nat} (hrt : cfg.remove_typedef = true)
    (hbe : cfg.enum_complement_index = true → ∀ c, .number c ∈ atoms ds → c.number ≤ (b : Int))
    (hbu : cfg.union_complement_index = true → ∀ c, .number c ∈ atoms ds → c.number ≤ (b : Int))
    {items : List Item} (h : types_token (setup_context ds cfg) n = .ok items) :
    weights (items.flatMap Item.tokens) ≤ atomsSize (atoms ds) * (4 * (b + 1) * unit ds) := by
  unfold types_token at h
  simp only [GR.bind_eq_ok, GR.ok.injEq] at h
  obtain ⟨ls, h1, rfl⟩ := h
  refine Nat.le_trans ?_ (Nat.mul_le_mul_right _ (typedefsSize_le (cfg := cfg) ds))
  have h2 := GR.mapM_ok.1 h1
  have key : ∀ p ∈ (setup_context ds cfg).typedefs, ∀ l, typeToken (setup_context ds cfg) n p.1 p.2 = .ok l →
      weights (l.flatMap Item.tokens) ≤ atomsSize p.2.atoms * (4 * (b + 1) * unit ds) :=
    fun p hp l hl => typeToken_size hwf hrt hbe hbu hp hl
  clear h1
  generalize (setup_context ds cfg).typedefs = tds at h2 key
  induction h2 with
  | nil => simp [typedefsSize, weights_nil]
  | cons h _ ih =>
    rename_i p l tds ls _
    have h3 := ih fun p hp => key p (by simp [hp])
    have h4 := key p (by simp) l h
    rw [List.flatten_cons, List.flatMap_append, weights_append, typedefsSize, Nat.add_mul]
    omega

theorem file_weights (hwf : WellFormed ds) {b n : Nat} (hrt : cfg.remove_typedef = true)
    (hbe : cfg.enum_complement_index = true → ∀ c, .number c ∈ atoms ds → c.number ≤ (b : Int))
    (hbu : cfg.union_complement_index = true → ∀ c, .number c ∈ atoms ds → c.number ≤ (b : Int))
    {file : RustFile} (h : gen_code n ds cfg = .ok file) :
    weights file.tokens ≤ 400 + atomsSize (atoms ds) * (4 * atomsSize (atoms ds) + 120) +
      atomsSize (atoms ds) * (4 * (b + 1) * (188 * atomsSize (atoms ds) + 2560)) := by
  obtain ⟨h1, h2, -⟩ := gen_code_ok.1 h
  have h3 := weights_flatMap (constants_count hwf h1) fun c hc => ((constants_fit h1).2 c hc).weights
  have h4 := types_size hwf hrt hbe hbu h2
  have e1 : 2 * nameBound ds + 60 = 4 * atomsSize (atoms ds) + 120 := by simp only [nameBound]; omega
  have e2 : unit ds = 188 * atomsSize (atoms ds) + 2560 := by simp only [unit, nameBound, typeBound]; omega
  rw [e1] at h3
  rw [e2] at h4
  have h5 : weights [kw c!"use", kw c!"serde", .op c!"::",
    .group .brace [kw c!"Deserialize", .op c!",", kw c!"Serialize"], .op c!";"] ≤ 60 := by
    weigh []
    omega
  have h6 : weights (if file.useTuple then kw c!"use" :: useTokens [c!"serde", c!"ser", c!"SerializeTuple"] else []) ≤ 60 := by
    split <;> weigh [useTokens] <;> omega
  have h7 : weights (if file.useIndexer then
    kw c!"use" :: useTokens [c!"serde_xdr", c!"XdrIndexer"] ++
      kw c!"use" :: useTokens [c!"serde_xdr_derive", c!"XdrIndexer"] else []) ≤ 100 := by
    split <;> weigh [useTokens] <;> omega
  have h8 : weights (if file.useUnion then
    kw c!"use" :: useTokens [c!"serde_xdr", c!"XdrUnion"] ++
      kw c!"use" :: useTokens [c!"serde_xdr_derive", c!"XdrUnion"] else []) ≤ 100 := by
    split <;> weigh [useTokens] <;> omega
  unfold RustFile.tokens
  simp only [weights_append] at h3 h4 h5 h6 h7 h8 ⊢
  omega

theorem file_text_length (hwf : WellFormed ds) {b n m : Nat} (hrt : cfg.remove_typedef = true)
    (hbe : cfg.enum_complement_index = true → ∀ c, .number c ∈ atoms ds → c.number ≤ (b : Int))
    (hbu : cfg.union_complement_index = true → ∀ c, .number c ∈ atoms ds → c.number ≤ (b : Int))
    {file : RustFile} (h : gen_code n ds cfg = .ok file) (hm : atomsSize (atoms ds) ≤ m) :
    file.text.length + 1 ≤ 6000 * (b + 1) * ((m + 1) * (m + 1)) := by
  have h1 := file_weights hwf hrt hbe hbu h
  have h2 := tokensText_le file.tokens
  have h3 : weights file.tokens + 1 ≤ 6000 * (b + 1) * ((m + 1) * (m + 1)) := by
    generalize atomsSize (atoms ds) = S at h1 hm
    generalize weights file.tokens = w at h1
    have hS : S * S ≤ m * m := Nat.mul_le_mul hm hm
    generalize hc : b + 1 = c at h1 ⊢
    have hc1 : 1 ≤ c := by omega
    have e1 : S * (4 * S + 120) = 4 * (S * S) + 120 * S := by
      rw [Nat.mul_add, Nat.mul_left_comm, Nat.mul_comm S 120]
    have e2 : S * (4 * c * (188 * S + 2560)) = c * (752 * (S * S) + 10240 * S) := by
      rw [Nat.mul_left_comm, Nat.mul_comm 4 c, Nat.mul_assoc, Nat.mul_add, Nat.mul_left_comm S 188,
        Nat.mul_comm S 2560]
      congr 1
      omega
    have e3 : (m + 1) * (m + 1) = m * m + 2 * m + 1 := by
      rw [Nat.add_mul, Nat.mul_add]
      omega
    rw [e1, e2] at h1
    rw [e3]
    have h4 : 401 + (4 * (S * S) + 120 * S) ≤ c * (401 + (4 * (S * S) + 120 * S)) := Nat.le_mul_of_pos_left _ hc1
    have h5 : c * (401 + (4 * (S * S) + 120 * S)) + c * (752 * (S * S) + 10240 * S) ≤
        c * (6000 * (m * m + 2 * m + 1)) := by
      rw [← Nat.mul_add]
      exact Nat.mul_le_mul_left _ (by omega)
    rw [Nat.mul_comm 6000 c, Nat.mul_assoc]
    omega
  simp only [RustFile.text]
  omega

/-! ## From below -/

theorem mem_tokensText {t : Token} : ∀ {ts : List Token}, t ∈ ts → t.text.length ≤ (tokensText ts).length
  | [], h => by cases h
  | [u], h => by
    simp only [List.mem_singleton] at h
    subst h
    rw [tokensText]
    exact Nat.le_refl _
  | u :: v :: ts, h => by
    rw [tokensText]
    simp only [List.length_append, List.length_cons]
    rcases List.mem_cons.1 h with rfl | h
    · omega
    · have := mem_tokensText h
      omega

theorem length_le_commaSep {α : Type} {f : α → List Token} (h : ∀ x, 1 ≤ (f x).length) :
    ∀ l : List α, l.length ≤ (commaSep (l.map f)).length
  | [] => by simp
  | [x] => by simpa [commaSep] using h x
  | x :: y :: l => by
    have h1 := length_le_commaSep h (y :: l)
    have h2 := h x
    simp only [List.map_cons, commaSep, List.length_append, List.length_cons] at h1 h2 ⊢
    omega

/-- Each variant of an enum is written. -/
theorem enum_text_length (e : EnumItem) {file : RustFile} (h : .enum e ∈ file.types) :
    e.variants.length ≤ file.text.length + 1 := by
  let vs := commaSep (e.variants.map fun v => .ident v.1 :: .op c!"=" :: intTokens .i32 v.2)
  have h1 : e.variants.length ≤ vs.length := length_le_commaSep (by simp) _
  have h2 := length_le_tokensText vs
  have h3 : Token.group .brace vs ∈ file.tokens := by
    unfold RustFile.tokens
    refine List.mem_append_right _ (List.mem_flatMap.2 ⟨.enum e, h, ?_⟩)
    simp only [Item.tokens, EnumItem.tokens]
    simp [vs]
  have h4 := mem_tokensText h3
  rw [Token.text] at h4
  simp only [List.length_append] at h4
  simp only [RustFile.text]
  omega

/-- `enum e { A = N };` for each number of `int` but the last. -/
theorem huge_enum {N : Nat} (hN : N < 2147483647) (n : Nat) {flags : Flags}
    (h1 : flags.use_std_trait = false) (h2 : flags.use_indexer = false) {c : Constant} (hc : c.value .i32 = .ok (N : Int)) :
    ∃ file, gen_code n [.type (.enum c!"e" [⟨c!"A", .constant c⟩])] flags.config = .ok file ∧
      N ≤ file.text.length := by
  have hcompl : flags.config.enum_complement_index = true := by
    simp [Flags.config, Config.enum_complement_index, h1, h2]
  obtain ⟨r, hr⟩ : ∃ r, GR.mapM (fun index => (reservedIdent index).bind fun r => GR.ok (r, index)) (intRange 0 N) = .ok r := by
    refine mapM_isOk.2 fun k hk => ?_
    obtain ⟨i, hi⟩ := reservedIdent_iff.2 (mem_intRange.1 hk).1
    exact ⟨(i, k), by simp [hi, GR.bind]⟩
  have hlen : r.length = N := by
    rw [← (GR.mapM_ok.1 hr).length_eq]
    simp [intRange]
  have hA : upper_camel_case_ident c!"A" = .ok ⟨false, c!"A"⟩ := by decide +kernel
  have hE : upper_camel_case_ident c!"e" = .ok ⟨false, c!"E"⟩ := by decide +kernel
  have hloop : enumLoop true (sortByKey [((N : Int), (⟨c!"A", .constant c⟩ : Assign))]) 0 =
      .ok [(r, ⟨false, c!"A"⟩, (N : Int))] := by
    have : ¬ IntTy.i32.max < (N : Int) + 1 := by simp only [IntTy.max]; omega
    have hs : sortByKey [((N : Int), (⟨c!"A", .constant c⟩ : Assign))] = [((N : Int), ⟨c!"A", .constant c⟩)] := rfl
    simp only [hs, enumLoop, if_true, hr, hA]
    simp only [GR.bind, if_neg this]
  have hidx : enumIndexed (setup_context [.type (.enum c!"e" [⟨c!"A", .constant c⟩])] flags.config) n
      [⟨c!"A", .constant c⟩] = .ok [((N : Int), ⟨c!"A", .constant c⟩)] := by
    simp only [enumIndexed, GR.mapM, Context.resolve_value, resolveValueWith, hc, GR.bind]
  have he : ∃ e, convert_enum_token (setup_context [.type (.enum c!"e" [⟨c!"A", .constant c⟩])] flags.config) n c!"e"
      [⟨c!"A", .constant c⟩] = .ok e ∧ N + 1 = e.variants.length := by
    have hcfg : (setup_context [.type (.enum c!"e" [⟨c!"A", .constant c⟩])] flags.config).config = flags.config := rfl
    simp only [convert_enum_token, hidx, GR.bind, hE, hcfg, hcompl, hloop]
    refine ⟨_, rfl, ?_⟩
    simp [hlen]
  obtain ⟨e, he, hv⟩ := he
  have ht : types_token (setup_context [.type (.enum c!"e" [⟨c!"A", .constant c⟩])] flags.config) n = .ok [.enum e] := by
    simp only [types_token]
    have : (setup_context [.type (.enum c!"e" [⟨c!"A", .constant c⟩])] flags.config).typedefs =
      [(c!"e", .enum c!"e" [⟨c!"A", .constant c⟩])] := rfl
    simp only [this, GR.mapM, typeToken, he, GR.bind, List.flatten_cons, List.flatten_nil, List.append_nil]
  have hg := gen_code_ok (n := n) (ds := [.type (.enum c!"e" [⟨c!"A", .constant c⟩])]) (cfg := flags.config)
    (file := ⟨flags.config.enum_impl_indexer || flags.config.union_impl_indexer || flags.config.union_impl_union,
      flags.config.enum_impl_indexer || flags.config.union_impl_indexer, flags.config.union_impl_union, [], [.enum e]⟩)
  refine ⟨_, hg.2 ⟨rfl, ht, rfl, rfl, rfl⟩, ?_⟩
  have := enum_text_length e (file := ⟨flags.config.enum_impl_indexer || flags.config.union_impl_indexer ||
    flags.config.union_impl_union, flags.config.enum_impl_indexer || flags.config.union_impl_indexer,
    flags.config.union_impl_union, [], [.enum e]⟩) (by simp)
  omega

end Xdr.Rpcgen
