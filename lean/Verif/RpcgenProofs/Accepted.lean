import Verif.RpcgenProofs.FormInv
/-!
# A generated type has no other values than those of its XDR type
-/

namespace Xdr.Rpcgen

open Rfc (XVal)
open Wire (Form Forms Called)

/-- A discriminant has a number. -/
def NumBack (file : RustFile) (t : Ty) (v : Val) (x : XVal) : Prop :=
  (t = .u32 ∨ t = .bool ∨ ∃ e, .enum e ∈ file.types ∧ t = .named e.name.str) →
    ∃ k, discriminant x = some k ∧ IsNumber file t v k

/-- A type that is defined, if it is a name. -/
def Known (ds : List Definition) (ts : TypeSpecifier) : Prop :=
  ∀ name, ts = .identifier name → typeOf ds name ≠ none

/-- The values of the translation of a type specifier stand for values of it. -/
def TypedBack (ds : List Definition) (cfg : Config) (file : RustFile) (defs : List (String × Def)) (N m : Nat)
    (ts : TypeSpecifier) : Prop :=
  Known ds ts →
  ∀ rty op, convert_primitive_token (convert_type_token (setup_context ds cfg) m) (setup_context ds cfg) ts =
    .ok (rty, op) → ∀ attr t, AttrOk ds cfg ts attr op →
    fieldMeaning file.constants file.enums attr rty = some t →
    ∀ v s, Pres (Xdr.program defs) t v s → Fits (Xdr.program defs) t v → v.depth < N →
    ∃ x, TypedL ds cfg.leeway ts x ∧ Rep (Xdr.program defs) t v x ∧ NumBack file t v x ∧
      ∀ b, Form (Xdr.program defs) t v b → TypedF ds cfg ts x b

/-- The values of the translation of a declaration stand for values of it. -/
def DeclBack (ds : List Definition) (cfg : Config) (file : RustFile) (defs : List (String × Def)) (N m : Nat)
    (d : Declaration) : Prop :=
  (∀ ts, d.element = some ts → Known ds ts) → (∀ a ∈ d.atoms, a.Ok) →
  (∀ ts nm mx, d = .variableArray ts nm mx → OpaqueOk ds (.variable ts nm)) →
  ∀ rty op, convert_type_token (setup_context ds cfg) m d = .ok (some (rty, op)) → ∀ attr t,
    ((attr = op.attr ∧ (op = .none → ∀ ts, d.type_specifier = some ts → UseOk ds cfg ts)) ∨
     (op = .none ∧ attr = .signed32 ∧ ∃ ts, d.type_specifier = some ts ∧
      (setup_context ds cfg).is_enum_type ts = true)) →
    fieldMeaning file.constants file.enums attr rty = some t →
    ∀ v s, Pres (Xdr.program defs) t v s → Fits (Xdr.program defs) t v → v.depth < N →
    ∃ x, DeclaredL ds cfg.leeway d x ∧ Rep (Xdr.program defs) t v x ∧ NumBack file t v x ∧
      ∀ b, Form (Xdr.program defs) t v b → DeclaredF ds cfg d x b

section
variable {ds : List Definition} {cfg : Config} {n : Nat} {file : RustFile} {defs : List (String × Def)}
  {dflt : Bool}

theorem numBack_ty {t : Ty} {v : Val} {x : XVal} (h1 : t ≠ .u32) (h2 : t ≠ .bool) (h3 : ∀ s, t ≠ .named s) :
    NumBack file t v x := by
  rintro (h | h | ⟨e, -, h⟩)
  · exact absurd h h1
  · exact absurd h h2
  · exact absurd h (h3 _)

/-- An item that is no enum has no enum's name. -/
theorem numBack_item (hd : file.defs = some defs) {i : Item} (hi : i ∈ file.types) (hn : ∀ e, i ≠ .enum e) {v : Val}
    {x : XVal} : NumBack file (.named i.name.str) v x := by
  rintro (h | h | ⟨e, he, h⟩)
  · cases h
  · cases h
  · have hnd := (namesOk_iff.1 (defs_ok hd).1).1
    simp only [Ty.named.injEq] at h
    have := List.inj_on_of_nodup_map hnd hi he h
    exact absurd this (hn e)

/-! ## Lengths -/

/-- The number of a literal of an unsigned type. -/
theorem value_nonneg {c : Constant} {s : Str} (hs : ConstantText c s) {t : IntTy} (ht : t ≠ .i32) {k : Int}
    (h : c.value t = .ok k) : k = c.number ∧ 0 ≤ k := by
  refine ⟨value_number hs h, ?_⟩
  unfold Constant.value at h
  rw [tryInto_eq hs] at h
  split at h
  · next hh =>
    cases h
    have h1 := hh.1
    cases t with
    | i32 => exact absurd rfl ht
    | _ => exact h1
  · cases h

/-- The constants of the generated file are unsigned. -/
theorem const_unsigned {cs : List ConstItem} (h : constants_token (setup_context ds cfg) = .ok cs) {c : ConstItem}
    (hc : c ∈ cs) : c.ty ≠ .i32 := by
  unfold constants_token at h
  obtain ⟨⟨nm, v⟩, -, hab⟩ := forall₂_mem_right (GR.mapM_ok.1 h) hc
  simp only [GR.bind_eq_ok] at hab
  obtain ⟨id, -, hb⟩ := hab
  split at hb
  · cases hb
    simp
  · simp only [GR.bind_eq_ok, GR.ok.injEq] at hb
    obtain ⟨_, -, rfl⟩ := hb
    simp
  · cases hb
  · cases hb

/-- The atoms of a constant of the interface. -/
theorem constOf_atoms_ok (hwf : WellFormed ds) {nm : Str} {v : Value} (h : constOf ds nm = some v) :
    ∀ a ∈ v.atoms, a.Ok := by
  intro a ha
  obtain ⟨d, hd, hx⟩ := List.exists_of_findSome?_eq_some h
  cases d with
  | constant b =>
    by_cases hb : b.identifier = nm
    · simp only [hb, if_true, Option.some.injEq] at hx
      subst hx
      exact hwf a (List.mem_flatMap.2 ⟨_, hd, by simp [Definition.atoms, Assign.atoms, ha]⟩)
    · simp [hb] at hx
  | type _ => simp at hx
  | lineComment => simp at hx
  | program _ => simp at hx

/-- A constant with a value in the generated file has that value in the interface. -/
theorem const_stands (hwf : WellFormed ds) {cs : List ConstItem}
    (h : constants_token (setup_context ds cfg) = .ok cs) {t : IntTy} (ht : t ≠ .i32) {n : Nat} {v : Value}
    {tok : Tok} (hat : ∀ a ∈ v.atoms, a.Ok) (hv : convert_value_token t v false = .ok tok) {k : Int}
    (hk : constValue cs t n tok = some k) : Stands ds v k ∧ 0 ≤ k := by
  induction n generalizing v tok with
  | zero => cases hk
  | succ n ih =>
    cases v with
    | constant c =>
      simp only [convert_value_token, GR.bind_eq_ok, GR.ok.injEq] at hv
      obtain ⟨n, hn, rfl⟩ := hv
      simp only [constValue, if_true, Option.some.injEq] at hk
      obtain ⟨s, hs⟩ := hat (.number c) (by simp [Value.atoms])
      obtain ⟨h1, h2⟩ := value_nonneg hs ht hn
      subst hk
      exact ⟨⟨c, .literal c, h1.symm⟩, h2⟩
    | identifier nm =>
      simp only [convert_value_token, GR.bind_eq_ok, GR.ok.injEq, Bool.false_eq_true, if_false] at hv
      obtain ⟨id, hid, rfl⟩ := hv
      simp only [constValue] at hk
      split at hk
      · next c' hc' =>
        split at hk
        · next hty =>
          obtain ⟨v', hv', hcv⟩ := const_item h hid hc'
          rw [hty] at hcv
          obtain ⟨⟨c, h1, h2⟩, h3⟩ := ih (constOf_atoms_ok hwf hv') hcv hk
          exact ⟨⟨c, .name (by simp only [lookup, hv', Option.some_or]) h1, h2⟩, h3⟩
        · cases hk
      · cases hk

/-- The length of an array is the number the interface gives. -/
theorem len_stands (hwf : WellFormed ds) {cs : List ConstItem}
    (hcs : constants_token (setup_context ds cfg) = .ok cs) {v : Value} {len : Tok}
    (hat : ∀ a ∈ v.atoms, a.Ok) (h : convert_value_token .usize v false = .ok len) {c : Bool} {m : Nat}
    (hm : arrayLen cs len c = some m) : Stands ds v m := by
  cases v with
  | constant c =>
    simp only [convert_value_token, GR.bind_eq_ok, GR.ok.injEq] at h
    obtain ⟨n, hn, rfl⟩ := h
    simp only [arrayLen, if_true, Option.some.injEq] at hm
    obtain ⟨s, hs⟩ := hat (.number c) (by simp [Value.atoms])
    obtain ⟨h1, h2⟩ := value_nonneg hs (by simp) hn
    exact ⟨c, .literal c, by omega⟩
  | identifier nm =>
    simp only [convert_value_token, GR.bind_eq_ok, GR.ok.injEq, Bool.false_eq_true, if_false] at h
    obtain ⟨id, hid, rfl⟩ := h
    simp only [arrayLen] at hm
    split at hm
    · split at hm
      · next c' hc' =>
        simp only [Option.map_eq_some_iff] at hm
        obtain ⟨k, hk, hm⟩ := hm
        obtain ⟨v', hv', hcv⟩ := const_item hcs hid hc'
        obtain ⟨⟨c, h1, h2⟩, h3⟩ := const_stands hwf hcs (const_unsigned hcs (List.mem_of_find?_eq_some hc'))
          (constOf_atoms_ok hwf hv') hcv hk
        exact ⟨c, .name (by simp only [lookup, hv', Option.some_or]) h1, by omega⟩
      · cases hm
    · cases hm

/-! ## Values of defined types -/

theorem depth_mem {vs : List Val} {v : Val} (h : v ∈ vs) : v.depth < depthList vs := by
  induction vs with
  | nil => cases h
  | cons w vs ih =>
    simp only [depthList]
    rcases List.mem_cons.1 h with rfl | h
    · omega
    · have := ih h
      omega

theorem pres_struct {env : Env} {name : String} {fs : List (String × Ty)} (he : env name = some (.struct fs))
    {v : Val} {s : SVal} (h : Pres env (.named name) v s) (hf : Fits env (.named name) v) :
    ∃ vs ss, v = .seq vs ∧ PresEach env (fs.map (·.2)) vs ss ∧ FitsEach env (fs.map (·.2)) vs := by
  cases h <;> simp_all [Fits]
  exact ⟨_, by assumption⟩

theorem pres_enum {env : Env} {name : String} {vars : List (String × Shape)} (he : env name = some (.enum vars))
    (hsh : ∀ v ∈ vars, v.2 = .unit ∨ ∃ t, v.2 = .newtype t)
    {v : Val} {s : SVal} (h : Pres env (.named name) v s) (hf : Fits env (.named name) v) :
    ∃ i vs ss vn sh, v = .variant i vs ∧ i < 2 ^ 32 ∧ vars[i]? = some (vn, sh) ∧ PresEach env sh.types vs ss ∧
      FitsEach env sh.types vs := by
  cases h with
  | @enumUnit _ _ i vn h1 h2 =>
    rw [he] at h1
    cases h1
    simp only [Fits, he, h2] at hf
    exact ⟨i, [], [], vn, .unit, rfl, hf.1, h2, .nil, trivial⟩
  | @enumNewtype _ _ i vn t v s h1 h2 h3 =>
    rw [he] at h1
    cases h1
    simp only [Fits, he, h2] at hf
    exact ⟨i, [v], [s], vn, .newtype t, rfl, hf.1, h2, .cons h3 .nil, hf.2, trivial⟩
  | enumTuple h1 h2 =>
    rw [he] at h1
    cases h1
    rcases hsh _ (List.mem_of_getElem? h2) with h | ⟨_, h⟩ <;> cases h
  | enumStruct h1 h2 =>
    rw [he] at h1
    cases h1
    rcases hsh _ (List.mem_of_getElem? h2) with h | ⟨_, h⟩ <;> cases h
  | _ => simp_all

theorem pres_indexer {env : Env} {name : String} {vars : List (String × Option (List Ty))} {impl : IndexerImpl}
    (he : env name = some (.indexer vars impl)) {v : Val} {s : SVal} (h : Pres env (.named name) v s)
    (hf : Fits env (.named name) v) :
    ∃ i vs ss vn fs idx, v = .variant i vs ∧ vars[i]? = some (vn, fs) ∧ impl.index i vs = .ok idx ∧
      impl.name_by_index idx = .ok vn ∧ PresEach env (fs.getD []) vs ss ∧ FitsEach env (fs.getD []) vs := by
  cases h with
  | @indexerUnit _ _ _ i vn h1 h2 =>
    rw [he] at h1
    cases h1
    simp only [Fits, he, h2] at hf
    obtain ⟨⟨idx, h3, h4⟩, -⟩ := hf
    exact ⟨i, [], [], vn, none, idx, rfl, h2, h3, h4, .nil, trivial⟩
  | @indexer _ _ _ i vn ts vs ss h1 h2 h3 =>
    rw [he] at h1
    cases h1
    simp only [Fits, he, h2] at hf
    obtain ⟨⟨idx, h4, h5⟩, -, -, h6⟩ := hf
    exact ⟨i, vs, ss, vn, some ts, idx, rfl, h2, h4, h5, h3, h6⟩
  | _ => simp_all

theorem pres_union {env : Env} {name : String} {disc : Ty} {vars : List (String × Option (List Ty))}
    {impl : UnionImpl} (he : env name = some (.union disc vars impl)) {v : Val} {s : SVal}
    (h : Pres env (.named name) v s) (hf : Fits env (.named name) v) :
    ∃ i dv vs sd ss vn ts, v = .variant i (dv :: vs) ∧ vars[i]? = some (vn, some (disc :: ts)) ∧
      impl.name_by_value dv = .ok vn ∧ Pres env disc dv sd ∧ Fits env disc dv ∧ PresEach env ts vs ss ∧
      FitsEach env ts vs := by
  cases h with
  | unionUnit h1 h2 =>
    rw [he] at h1
    cases h1
    simp only [Fits, he, h2] at hf
    obtain ⟨⟨_, _, _, h, -⟩, -⟩ := hf
    cases h
  | @union _ _ _ _ i vn ts vs ss h1 h2 h3 =>
    rw [he] at h1
    cases h1
    simp only [Fits, he, h2] at hf
    obtain ⟨⟨ts', dv, vs', h4, rfl, -, h5⟩, -, h6⟩ := hf
    cases h4
    cases h3 with
    | @cons _ _ _ _ sd ss h7 h8 =>
      exact ⟨i, dv, vs', sd, ss, vn, ts', rfl, h2, h5, h7, h6.1, h8, h6.2⟩
  | _ => simp_all

/-! ## Enums -/

theorem pairwise_at {ms : List (RIdent × Int)} (h : ms.Pairwise fun a b => a.2 < b.2) {i j : Nat} {a b : RIdent}
    {k : Int} (hi : ms[i]? = some (a, k)) (hj : ms[j]? = some (b, k)) : i = j := by
  obtain ⟨hi1, hi2⟩ := List.getElem?_eq_some_iff.1 hi
  obtain ⟨hj1, hj2⟩ := List.getElem?_eq_some_iff.1 hj
  rw [List.pairwise_iff_getElem] at h
  rcases Nat.lt_trichotomy i j with hl | he | hl
  · have := h i j hi1 hj1 hl
    rw [hi2, hj2] at this
    simp at this
  · exact he
  · have := h j i hj1 hi1 hl
    rw [hi2, hj2] at this
    simp at this

theorem sh_unit {vs : List (RIdent × Int)} {i : Nat} {vn : String} {sh : Shape}
    (h : (vs.map fun v => (v.1.str, Shape.unit))[i]? = some (vn, sh)) : Shape.unit = sh := by
  simp only [List.getElem?_map, Option.map_eq_some_iff, Prod.mk.injEq] at h
  obtain ⟨_, -, -, h⟩ := h
  exact h

theorem encode_pos {i : Nat} (h : i < 2 ^ 31) : Rfc.encode (.enum i) = some (Wire.word i) := by
  have h1 := encode_word (w := i) (by omega)
  have h2 := toInt_word (w := i) (by omega)
  have : (Int32.ofNat i).toInt = i := by
    revert h2
    generalize (Int32.ofNat i).toInt = z
    intro h2
    omega
  rw [this] at h1
  exact h1

theorem arm_none_of {α β : Type} [DecidableEq α] {k : α} {l : List (α × β)} (h : arm k l = none) {b : β}
    (hb : (k, b) ∈ l) : False := by
  unfold arm at h
  rw [Option.map_eq_none_iff, List.find?_eq_none] at h
  exact h _ hb (by simp)

theorem variantPos_some {β : Type} {vs : List (RIdent × β)} {id : RIdent} {i : Nat}
    (h : variantPos id vs = some i) : (vs[i]?).map (·.1) = some id := by
  unfold variantPos at h
  rw [List.findIdx?_eq_some_iff_getElem] at h
  obtain ⟨hi, h, -⟩ := h
  rw [List.getElem?_eq_getElem hi]
  simpa using h

theorem index_eq {w : Nat} (hw : w < 2 ^ 32) {j : Int} (hj : 0 ≤ j ∧ j ≤ 4294967295)
    (h : Int32.ofNat w = Int32.ofInt (asI32 j)) : w = j.toNat := by
  have h1 := (toInt_word hw).2.2
  rw [h, toInt_ofInt (asI32_range hj)] at h1
  unfold asI32 at h1
  split at h1 <;> omega

theorem head_least {ms : List (RIdent × Int)} (h : ms.Pairwise fun a b => a.2 < b.2) {m m' : RIdent × Int}
    (hh : ms.head? = some m) (hm : m' ∈ ms) : m.2 ≤ m'.2 := by
  cases ms with
  | nil => cases hm
  | cons a ms =>
    cases hh
    rcases List.mem_cons.1 hm with rfl | hm
    · exact Int.le_refl _
    · exact Int.le_of_lt ((List.pairwise_cons.1 h).1 _ hm)

theorem enum_back (R : Run ds cfg n file defs dflt) {name : Str} {as : List Assign}
    (hm : .type (.enum name as) ∈ ds) {id : RIdent} (hid : upper_camel_case_ident name = .ok id) {attr : Attr}
    {t : Ty} (hattr : attr = .none ∧ (cfg.enum_impl_std_trait = true → Positional ds as) ∨ attr = .signed32)
    (hmean : fieldMeaning file.constants file.enums attr (.path id) = some t) {v : Val} {s : SVal}
    (hp : Pres (Xdr.program defs) t v s) (hf : Fits (Xdr.program defs) t v) :
    ∃ x, DefinedL ds cfg.leeway (.enum name as) x ∧ Rep (Xdr.program defs) t v x ∧ NumBack file t v x ∧
      ∀ b, Form (Xdr.program defs) t v b → DefinedF ds cfg (.enum name as) x b := by
  obtain ⟨e, he, hmem⟩ := gen_code_enum R.gen hm
  obtain ⟨ks, hnum, hpos⟩ := R.ok.enums name as hm
  obtain ⟨ms, h1, h2, h3, h4, h5, h6, -, h7, h8, h9, h10, h11, h12, h13⟩ :=
    enum_members R.wf (members_ok R.wf hm) hnum.stands hnum.distinct hnum.range he
  rw [hid] at h8
  cases h8
  obtain ⟨d, hd1, hd2⟩ := defs_lookup R.defs hmem
  simp only [Item.name] at hd2
  obtain ⟨hnd, hdef⟩ := enum_meaning_ok hd1
  have hfind := enums_find (defs_ok R.defs).1 hmem
  have hval : ∃ i vid k, v = .variant i [] ∧ e.variants[i]? = some (vid, k) := by
    rcases hattr with ⟨rfl, -⟩ | rfl
    · cases hmean
      rcases hdef with ⟨-, rfl⟩ | ⟨-, ix, -, rfl⟩
      · obtain ⟨i, vs, ss, vn, sh, rfl, -, hi, hpe, -⟩ := pres_enum hd2 (by
          intro w hw
          rw [List.mem_map] at hw
          obtain ⟨_, -, rfl⟩ := hw
          exact .inl rfl) hp hf
        simp only [List.getElem?_map, Option.map_eq_some_iff, Prod.mk.injEq] at hi
        obtain ⟨⟨vid, k⟩, hi, -, rfl⟩ := hi
        cases hpe
        exact ⟨i, vid, k, rfl, hi⟩
      · obtain ⟨i, vs, ss, vn, fs, idx, rfl, hi, -, -, hpe, -⟩ := pres_indexer hd2 hp hf
        simp only [List.getElem?_map, Option.map_eq_some_iff, Prod.mk.injEq] at hi
        obtain ⟨⟨vid, k⟩, hi, -, rfl⟩ := hi
        cases hpe
        exact ⟨i, vid, k, rfl, hi⟩
    · simp only [fieldMeaning, hfind] at hmean
      split at hmean
      · cases hmean
        cases hp with
        | @signed32 _ _ i vars vn g1 g2 =>
          rw [hd2] at g1
          cases g1
          rcases hdef with ⟨-, g1⟩ | ⟨-, ix, -, g1⟩
          · cases g1
            simp only [List.getElem?_map, Option.map_eq_some_iff, Prod.mk.injEq] at g2
            obtain ⟨⟨vid, k⟩, hi, -⟩ := g2
            exact ⟨i, vid, k, rfl, hi⟩
          · cases g1
      · cases hmean
  obtain ⟨i, vid, k, rfl, hi⟩ := hval
  have hnb : NumBack file t (.variant i []) (.enum k) := by
    rintro (rfl | rfl | ⟨e', he', rfl⟩)
    · cases hp
    · cases hp
    · refine ⟨k, rfl, e, vid, hmem, ?_, hi⟩
      rcases hattr with ⟨rfl, -⟩ | rfl
      · simp only [fieldMeaning, RTy.meaning, Option.some.injEq, Ty.named.injEq] at hmean
        exact hmean
      · simp only [fieldMeaning, hfind] at hmean
        split at hmean <;> cases hmean
  by_cases hc : cfg.enum_complement_index = true
  · have hcons := h6 hc (hpos hc)
    have hk := hcons i k (by simp [hi])
    simp only [Int.zero_add] at hk
    subst hk
    have hci : cfg.enum_impl_indexer = false ∧ cfg.enum_impl_std_trait = false := by
      simpa [Config.enum_complement_index] using hc
    have hgap : ∃ a ∈ as, ∃ j, Stands ds a.value j ∧ (i : Int) ≤ j := by
      obtain ⟨w, hw⟩ : ∃ w, e.variants.getLast? = some w := by
        cases hl : e.variants.getLast? with
        | some w => exact ⟨w, rfl⟩
        | none =>
          rw [List.getLast?_eq_none_iff] at hl
          rw [hl] at hi
          cases hi
      obtain ⟨a, ha, -⟩ := h2 w (h13 w hw)
      have hw' := hw
      rw [List.getLast?_eq_getElem?] at hw'
      have hwk := hcons (e.variants.length - 1) w.2 (by simp [hw'])
      have hlt := (List.getElem?_eq_some_iff.1 hi).1
      exact ⟨a, (List.of_mem_zip ha).1, w.2, forall₂_zip hnum.stands ha, by omega⟩
    obtain ⟨a, ha, j, hj, hij⟩ := hgap
    rcases hattr with ⟨rfl, -⟩ | rfl
    · cases hmean
      rcases hdef with ⟨-, rfl⟩ | ⟨hx, -⟩
      · have hrep : Rep (Xdr.program defs) (.named e.name.str) (.variant i []) (.enum i) := by
          refine rep_enum hd2 (vn := vid.str) (by simp [hi]) ?_
          simp only [Fits, hd2] at hf
          exact hf.1
        refine ⟨.enum i, .enumGap (a := a) (j := j) hc ha hj (by omega) hij, hrep, hnb, fun b hb => ?_⟩
        obtain ⟨vn, sh, cs, hi31, hvi, hcs, rfl⟩ := form_enum hd2 hb
        cases sh_unit hvi
        cases hcs
        rw [List.append_nil]
        exact .enumGap (a := a) (j := j) hc ha hj (by omega) hij (encode_pos hi31)
      · rw [h9, hci.1] at hx
        cases hx
    · simp only [fieldMeaning, hfind, h10, hci.2] at hmean
      cases hmean
  · have hv := h7 (by simpa using hc)
    rw [hv] at hi
    obtain ⟨a, ha, -⟩ := h2 _ (List.mem_of_getElem? hi)
    have hst := forall₂_zip hnum.stands ha
    obtain ⟨e', i', id', he', hen, hi', g1, g2⟩ := enum_values R.wf R.enumTraits R.gen R.defs hm hnum hpos
      (List.of_mem_zip ha).1 hst hid
    have hee := enums_find (defs_ok R.defs).1 he'
    rw [hen, hfind] at hee
    cases hee
    rw [hv] at hi'
    have := pairwise_at h3 hi hi'
    subst this
    have ham := (List.of_mem_zip ha).1
    have hrange := hnum.range _ (List.of_mem_zip ha).2
    obtain ⟨eb, heb⟩ := encode_enum (k := k) hrange
    rcases hattr with ⟨rfl, hu⟩ | rfl
    · cases hmean
      refine ⟨.enum k, .enum ham hst, g1 hu, hnb, fun b hb => ?_⟩
      rcases hdef with ⟨-, rfl⟩ | ⟨hx, ix, hix, rfl⟩
      · obtain ⟨vn, sh, cs, hi31, hvi, hcs, rfl⟩ := form_enum hd2 hb
        cases sh_unit hvi
        cases hcs
        obtain ⟨vn', sh', cs', -, hvi', hcs', rfl⟩ := form_enum hd2 (rep_form (g1 hu) heb)
        cases sh_unit hvi'
        cases hcs'
        exact .enum ham hst heb
      · obtain ⟨w, vn, fs, cs, hw, hvn, hcall, hcs, rfl⟩ := form_indexer hd2 hb
        rw [h9] at hx
        rw [h12, hx] at hix
        simp only [if_true, Option.some.injEq] at hix
        have hcv := hcall.1
        rw [hv, List.getElem?_map, hi] at hcv
        cases hcv
        cases hcs
        rw [List.append_nil]
        rw [← hix] at hvn
        simp only [enumIndexerImpl] at hvn
        have hpos' : ∀ m ∈ ms, m.1.str = vid.str → m = (vid, k) := by
          intro m hm' hmv
          rw [hv] at hnd
          exact List.inj_on_of_nodup_map hnd hm' (List.mem_of_getElem? hi) hmv
        split at hvn
        · next id hid' =>
          have := arm_some hid'
          rw [List.mem_map] at this
          obtain ⟨m, hmm, hme⟩ := this
          simp only [Prod.mk.injEq] at hme
          obtain ⟨hm2, rfl⟩ := hme
          simp only [Res.ok.injEq] at hvn
          have := hpos' m hmm hvn
          subst this
          exact .enum ham hst (by have hm2 : k = _ := hm2; rw [hm2]; exact encode_word hw)
        · next hnone =>
          obtain ⟨m, hh, hdm⟩ := h4
          simp only [Res.ok.injEq] at hvn
          rw [hdm] at hvn
          have := hpos' m (List.mem_of_mem_head? hh) hvn
          subst this
          refine .enumOther hx ham hst ?_ (by simp [word_length]) ?_
          · intro a' ha' j hj
            obtain ⟨j', hj'⟩ := zip_mem_left hnum.stands.length_eq ha'
            have := stands_unique hj (forall₂_zip hnum.stands hj')
            subst this
            obtain ⟨id', -, hmem'⟩ := h1 _ hj'
            exact head_least h3 hh hmem'
          · intro a' ha' j hj hej
            obtain ⟨j', hj'⟩ := zip_mem_left hnum.stands.length_eq ha'
            have := stands_unique hj (forall₂_zip hnum.stands hj')
            subst this
            obtain ⟨id', -, hmem'⟩ := h1 _ hj'
            rw [encode_word_eq hw hej] at hnone
            exact arm_none_of hnone (List.mem_map.2 ⟨_, hmem', rfl⟩)
    · refine ⟨.enum k, .enum ham hst, g2 t hmean, hnb, fun b hb => ?_⟩
      simp only [fieldMeaning, hfind] at hmean
      split at hmean
      · next a t' ha' ht' =>
        cases hmean
        cases hb with
        | signed32 hw htf =>
          rename_i w
          rw [h11] at ht'
          split at ht'
          · cases ht'
            simp only [signed32Of] at htf
            split at htf
            · next id hid' =>
              split at htf
              · next p hp' =>
                cases htf
                have := arm_some hid'
                rw [List.mem_map] at this
                obtain ⟨m, hmm, hme⟩ := this
                simp only [Prod.mk.injEq] at hme
                obtain ⟨hm2, rfl⟩ := hme
                have hvm := variantPos_some hp'
                rw [hv, hi] at hvm
                simp only [Option.map_some, Option.some.injEq] at hvm
                rw [hv] at hnd
                have := List.inj_on_of_nodup_map hnd hmm (List.mem_of_getElem? hi) (by rw [hvm])
                subst this
                exact .enum ham hst (by have hm2 : k = _ := hm2; rw [hm2]; exact encode_word hw)
              · cases htf
            · cases htf
          · cases ht'
      · cases hmean

/-! ## Declarations -/

theorem forms_cons {env : Env} {k : Nat} {t : Ty} {v : Val} {vs : List Val} {b : Bytes}
    (h : Forms env (List.replicate k t) (v :: vs) b) :
    ∃ j b1 b2, k = j + 1 ∧ Form env t v b1 ∧ Forms env (List.replicate j t) vs b2 ∧ b = b1 ++ b2 := by
  cases k with
  | zero => cases h
  | succ j =>
    rw [List.replicate_succ] at h
    cases h with
    | cons h1 h2 => exact ⟨j, _, _, rfl, h1, h2, rfl⟩

/-- The elements of an array. -/
theorem each_back {N m : Nat} {ts : TypeSpecifier} (h : TypedBack ds cfg file defs N m ts) (hk : Known ds ts)
    {rty : RTy}
    (hc : convert_primitive_token (convert_type_token (setup_context ds cfg) m) (setup_context ds cfg) ts =
      .ok (rty, .none)) (hu : UseOk ds cfg ts) {t : Ty} (ht : rty.meaning file.constants = some t) {vs : List Val}
    {ss : List SVal} (hp : PresAll (Xdr.program defs) t vs ss) (hf : FitsAll (Xdr.program defs) t vs)
    (hd : ∀ v ∈ vs, v.depth < N) :
    ∃ xs, EachL ds cfg.leeway ts xs ∧ List.Forall₂ (Rep (Xdr.program defs) t) vs xs ∧
      ∀ k b, Forms (Xdr.program defs) (List.replicate k t) vs b → EachF ds cfg ts xs b := by
  induction vs generalizing ss with
  | nil => exact ⟨[], .nil, .nil, fun k b h => by generalize List.replicate k t = l at h; cases h; exact .nil⟩
  | cons v vs ih =>
    cases hp with
    | cons hp1 hp2 =>
      obtain ⟨x, h1, h2, -, h5⟩ := h hk rty .none hc .none t (.inl ⟨rfl, fun _ => hu⟩) ht v _ hp1 hf.1
        (hd v List.mem_cons_self)
      obtain ⟨xs, h3, h4, h6⟩ := ih hp2 hf.2 fun w hw => hd w (List.mem_cons_of_mem _ hw)
      refine ⟨x :: xs, .cons h1 h3, .cons h2 h4, fun k b hb => ?_⟩
      obtain ⟨j, b1, b2, -, hb1, hb2, rfl⟩ := forms_cons hb
      exact .cons (h5 _ hb1) (h6 j _ hb2)

theorem plainOpaque_declared {L : Leeway} {d : Declaration} (hp : PlainOpaque ds d) {bs : Bytes}
    (h : bs.length < 2 ^ 32) : DeclaredL ds L d (.opaqueVar bs) := by
  induction hp with
  | direct => exact .opaqueVar h
  | typedef hd _ ih => exact .variable (.name hd (.typedef ih))

theorem plainOpaque_form {d : Declaration} (hp : PlainOpaque ds d) {bs p : Bytes}
    (h : bs.length < 2 ^ 32) (h' : Wire.Padding bs.length p) :
    DeclaredF ds cfg d (.opaqueVar bs) (Wire.word bs.length ++ (bs ++ p)) := by
  induction hp with
  | direct => exact .opaqueVar h h'
  | typedef hd _ ih => exact .variable (.name hd (.typedef ih))

/-- The values of serde-xdr's `VariableArray`. -/
theorem wrapper_back (R : Run ds cfg n file defs dflt) {v : Val} {s : SVal}
    (hp : Pres (Xdr.program defs) (.named variableArrayName) v s)
    (hf : Fits (Xdr.program defs) (.named variableArrayName) v) :
    ∃ bs : Bytes, bs.length < 2 ^ 32 ∧ Rep (Xdr.program defs) (.named variableArrayName) v (.opaqueVar bs) ∧
      ∀ b, Form (Xdr.program defs) (.named variableArrayName) v b →
        ∃ p, Wire.Padding bs.length p ∧ b = Wire.word bs.length ++ (bs ++ p) := by
  have hl := variableArray_lookup R.gen R.defs
  obtain ⟨vs, ss, rfl, hpe, hfe⟩ := pres_struct hl hp hf
  cases hpe with
  | cons h1 h2 =>
    cases h2
    cases h1 with
    | opaqueVar bs =>
      have hb : bs.length < 2 ^ 32 := by simpa [FitsEach, Fits] using hfe
      refine ⟨bs, hb, rep_variableArray R.gen R.defs hb, fun b hfb => ?_⟩
      have hfs := form_struct hl hfb
      cases hfs with
      | cons g1 g2 =>
        cases g2
        cases g1 with
        | opaqueVar _ g3 => exact ⟨_, g3, List.append_nil _⟩

/-- The elements of an array of `VariableArray`. -/
theorem wrappers_back (R : Run ds cfg n file defs dflt) {ts : TypeSpecifier} {nm : Str}
    (ho : PlainOpaque ds (.variable ts nm)) {vs : List Val} {ss : List SVal}
    (hp : PresAll (Xdr.program defs) (.named variableArrayName) vs ss)
    (hf : FitsAll (Xdr.program defs) (.named variableArrayName) vs) :
    ∃ xs, EachL ds cfg.leeway ts xs ∧ List.Forall₂ (Rep (Xdr.program defs) (.named variableArrayName)) vs xs ∧
      ∀ k b, Forms (Xdr.program defs) (List.replicate k (.named variableArrayName)) vs b → EachF ds cfg ts xs b := by
  induction vs generalizing ss with
  | nil =>
    exact ⟨[], .nil, .nil, fun k b h => by
      generalize List.replicate k (Ty.named variableArrayName) = l at h; cases h; exact .nil⟩
  | cons v vs ih =>
    cases hp with
    | cons hp1 hp2 =>
      obtain ⟨bs, hb, h2, h5⟩ := wrapper_back R hp1 hf.1
      obtain ⟨xs, h3, h4, h6⟩ := ih hp2 hf.2
      have hd : DeclaredL ds cfg.leeway (.variable ts nm) (.opaqueVar bs) := plainOpaque_declared ho hb
      cases hd with
      | «variable» h1 =>
        refine ⟨_ :: xs, .cons h1 h3, .cons h2 h4, fun k b hfb => ?_⟩
        obtain ⟨j, b1, b2, -, hb1, hb2, rfl⟩ := forms_cons hfb
        obtain ⟨p, hp', rfl⟩ := h5 _ hb1
        have hdf : DeclaredF ds cfg (.variable ts nm) _ _ := plainOpaque_form ho hb hp'
        cases hdf with
        | «variable» g1 => exact .cons g1 (h6 j _ hb2)

theorem fixedArray_back (R : Run ds cfg n file defs dflt) {N m : Nat} {ts : TypeSpecifier} {nm : Str} {v : Value}
    (h : TypedBack ds cfg file defs N m ts) :
    DeclBack ds cfg file defs (N + 1) (m + 1) (.fixedArray ts nm v) := by
  intro hkn hat _ rty op hc attr t hattr hmean w s hp hf hd
  simp only [convert_type_token, convertTypeWith, GR.bind_eq_ok, GR.ok.injEq, Option.some.injEq,
    Prod.mk.injEq] at hc
  obtain ⟨⟨ty, op'⟩, hty, len, hlen, rfl, rfl⟩ := hc
  simp only at hattr hmean
  obtain ⟨rfl, t', k, ht', hk, rfl⟩ := meaning_array hmean (by
    rintro rfl rfl
    have hop : op' ≠ .none := by
      rintro rfl
      rcases hattr with ⟨h, -⟩ | ⟨-, h, -⟩ <;> cases h
    rcases (hasOpaque_prim R.rt hty hop []).2 with ⟨_, _, _, h⟩ | ⟨_, h⟩ | ⟨_, h⟩ <;> cases h)
  rcases hattr with ⟨h1, h2⟩ | ⟨-, h, -⟩
  · have := attr_none h1.symm
    subst this
    have hs := len_stands R.wf (gen_code_ok.1 R.gen).1 (by
      intro a ha
      exact hat a (by simp [Declaration.atoms, ha])) hlen hk
    cases hp with
    | array hpa =>
      rename_i vs ss
      simp only [Fits] at hf
      simp only [Val.depth] at hd
      obtain ⟨xs, h3, h4, h5⟩ := each_back h (hkn ts rfl) hty (h2 rfl ts rfl) ht' hpa hf fun w hw => by
        have := depth_mem hw
        omega
      have hl := h4.length_eq
      rw [hl] at hs
      refine ⟨.arrayFixed xs, .fixedArray hs h3, ?_, numBack_ty (by simp) (by simp) (by simp), fun b hb => ?_⟩
      · rw [hl]
        exact rep_array h4
      · cases hb with
        | array hb => exact .fixedArray hs (h5 _ _ hb)
  · cases h

theorem variableArray_back (R : Run ds cfg n file defs dflt) {N m : Nat} {ts : TypeSpecifier} {nm : Str}
    {mx : Option Value} (h : TypedBack ds cfg file defs N m ts) :
    DeclBack ds cfg file defs (N + 1) (m + 1) (.variableArray ts nm mx) := by
  intro hkn hat hok rty op hc attr t hattr hmean w s hp hf hd
  simp only [convert_type_token, convertTypeWith, GR.bind_eq_ok] at hc
  obtain ⟨⟨ty, op'⟩, hty, hc⟩ := hc
  simp only at hc
  split at hc
  · next hop =>
    subst hop
    simp only [GR.ok.injEq, Option.some.injEq, Prod.mk.injEq] at hc
    obtain ⟨rfl, rfl⟩ := hc
    obtain ⟨rfl, t', ht', rfl⟩ := meaning_vec hmean (fun _ => by simp)
    cases ht'
    have hop := (hasOpaque_prim R.rt hty (by simp) nm).1
    rcases hok ts nm mx rfl with ho | ho
    · cases hp with
      | vec hpa =>
        simp only [Fits] at hf
        obtain ⟨xs, h3, h4, h5⟩ := wrappers_back R ho hpa hf.2
        have hl := hf.1
        rw [h4.length_eq] at hl
        refine ⟨.arrayVar xs, .variableArray hl h3, rep_vec h4 hl, numBack_ty (by simp) (by simp) (by simp), fun b hb => ?_⟩
        cases hb with
        | vec hk hb =>
          have hlen := (forms_length hb).trans h4.length_eq
          rw [List.length_replicate] at hlen
          rw [hlen]
          exact .variableArray hl (h5 _ _ hb)
    · exact absurd hop ho
  · next hop =>
    simp only [GR.ok.injEq, Option.some.injEq, Prod.mk.injEq] at hc
    obtain ⟨rfl, rfl⟩ := hc
    obtain ⟨rfl, t', ht', rfl⟩ := meaning_vec hmean (by
      rintro rfl rfl
      have hop : op' ≠ .none := by
        rintro rfl
        rcases hattr with ⟨h, -⟩ | ⟨-, h, -⟩ <;> cases h
      rcases (hasOpaque_prim R.rt hty hop []).2 with ⟨_, _, _, h⟩ | ⟨_, h⟩ | ⟨_, h⟩ <;> cases h)
    rcases hattr with ⟨h1, h2⟩ | ⟨-, h, -⟩
    · have := attr_none h1.symm
      subst this
      cases hp with
      | vec hpa =>
        simp only [Fits] at hf
        simp only [Val.depth] at hd
        obtain ⟨xs, h3, h4, h5⟩ := each_back h (hkn ts rfl) hty (h2 rfl ts rfl) ht' hpa hf.2 fun w hw => by
          have := depth_mem hw
          omega
        have hl := hf.1
        rw [h4.length_eq] at hl
        refine ⟨.arrayVar xs, .variableArray hl h3, rep_vec h4 hl, numBack_ty (by simp) (by simp) (by simp), fun b hb => ?_⟩
        cases hb with
        | vec hk hb =>
          have hlen := (forms_length hb).trans h4.length_eq
          rw [List.length_replicate] at hlen
          rw [hlen]
          exact .variableArray hl (h5 _ _ hb)
    · cases h

theorem form_opaqueFixed {env : Env} {k : Nat} {bs b : Bytes} (h : Form env (.opaqueFixed k) (.bytes bs) b) :
    ∃ p, Wire.Padding bs.length p ∧ b = bs ++ p := by
  generalize ht : Ty.opaqueFixed k = t at h
  cases h with
  | opaqueFixed h => exact ⟨_, h, rfl⟩
  | _ => cases ht

theorem opaqueFixed_back (R : Run ds cfg n file defs dflt) {N m : Nat} {nm : Str} {v : Value} :
    DeclBack ds cfg file defs N (m + 1) (.opaqueFixedArray nm v) := by
  intro hkn hat _ rty op hc attr t hattr hmean w s hp hf hd
  simp only [convert_type_token, convertTypeWith, GR.bind_eq_ok, GR.ok.injEq, Option.some.injEq,
    Prod.mk.injEq] at hc
  obtain ⟨len, hlen, rfl, rfl⟩ := hc
  rcases hattr with ⟨rfl, -⟩ | ⟨h, -⟩
  · simp only [OpaqueType.attr, fieldMeaning, arrayTy] at hmean
    split at hmean
    · next k hk =>
      have hs := len_stands R.wf (gen_code_ok.1 R.gen).1 (by
        intro a ha
        exact hat a (by simp [Declaration.atoms, ha])) hlen hk
      split at hmean
      · cases hmean
        cases hp with
        | opaqueFixed bs =>
          refine ⟨.opaqueFixed bs, .opaqueFixed hs, rep_opaqueFixed _ bs, numBack_ty (by simp) (by simp) (by simp), fun b hb => ?_⟩
          obtain ⟨p, hp', rfl⟩ := form_opaqueFixed hb
          exact .opaqueFixed hs hp'
      · cases hmean
    · cases hmean
  · cases h

theorem opaqueVar_back {N m : Nat} {nm : Str} {mx : Option Value} :
    DeclBack ds cfg file defs N (m + 1) (.opaqueVariableArray nm mx) := by
  intro hkn hat _ rty op hc attr t hattr hmean w s hp hf hd
  simp only [convert_type_token, convertTypeWith, GR.ok.injEq, Option.some.injEq, Prod.mk.injEq] at hc
  obtain ⟨rfl, rfl⟩ := hc
  rcases hattr with ⟨rfl, -⟩ | ⟨h, -⟩
  · simp only [OpaqueType.attr, fieldMeaning, Option.some.injEq] at hmean
    subst hmean
    cases hp with
    | opaqueVar bs =>
      simp only [Fits] at hf
      refine ⟨.opaqueVar bs, .opaqueVar hf, rep_opaqueVar hf, numBack_ty (by simp) (by simp) (by simp), fun b hb => ?_⟩
      cases hb with
      | opaqueVar h1 h2 => exact .opaqueVar h1 h2
  · cases h

theorem string_back {N m : Nat} {nm : Str} {mx : Option Value} :
    DeclBack ds cfg file defs N (m + 1) (.string nm mx) := by
  intro hkn hat _ rty op hc attr t hattr hmean w s hp hf hd
  simp only [convert_type_token, convertTypeWith, GR.ok.injEq, Option.some.injEq, Prod.mk.injEq] at hc
  obtain ⟨rfl, rfl⟩ := hc
  rcases hattr with ⟨rfl, -⟩ | ⟨-, rfl, -⟩
  · simp only [OpaqueType.attr, fieldMeaning, RTy.meaning, Option.some.injEq] at hmean
    subst hmean
    cases hp with
    | string cs =>
      simp only [Fits] at hf
      refine ⟨.string (utf8Bytes cs), .string hf, rep_string hf, numBack_ty (by simp) (by simp) (by simp), fun b hb => ?_⟩
      cases hb with
      | string h1 h2 => exact .string h1 h2
  · simp [fieldMeaning] at hmean

theorem option_back {N m : Nat} {ts : TypeSpecifier} {nm : Str} (h : TypedBack ds cfg file defs N m ts) :
    DeclBack ds cfg file defs (N + 1) (m + 1) (.optionVariable ts nm) := by
  intro hkn hat _ rty op hc attr t hattr hmean w s hp hf hd
  simp only [convert_type_token, convertTypeWith, GR.bind_eq_ok, GR.ok.injEq, Option.some.injEq] at hc
  obtain ⟨⟨ty, op'⟩, hty, hc⟩ := hc
  cases hc
  obtain ⟨rfl, t', ht', rfl⟩ := meaning_option hmean
  rcases hattr with ⟨h1, h2⟩ | ⟨-, h, -⟩
  · have := attr_none h1.symm
    subst this
    cases hp with
    | none =>
      refine ⟨.optNone, .absent, rep_optNone _ t', numBack_ty (by simp) (by simp) (by simp), fun b hb => ?_⟩
      cases hb
      exact .absent
    | some hp =>
      simp only [Fits] at hf
      simp only [Val.depth] at hd
      obtain ⟨x, h3, h4, -, h5⟩ := h (hkn ts rfl) ty .none hty .none t' (.inl ⟨rfl, fun h => h2 h ts rfl⟩) ht' _ _ hp hf (by omega)
      refine ⟨.optSome x, .present h3, rep_optSome h4, numBack_ty (by simp) (by simp) (by simp), fun b hb => ?_⟩
      cases hb with
      | some g1 g2 g3 => exact .present g1 g2 (h5 _ g3)
  · cases h

theorem variable_back {N m : Nat} {ts : TypeSpecifier} {nm : Str} (h : TypedBack ds cfg file defs N m ts) :
    DeclBack ds cfg file defs N (m + 1) (.variable ts nm) := by
  intro hkn hat _ rty op hc attr t hattr hmean w s hp hf hd
  simp only [convert_type_token, convertTypeWith, GR.bind_eq_ok, GR.ok.injEq, Option.some.injEq] at hc
  obtain ⟨⟨ty, op'⟩, hty, hc⟩ := hc
  cases hc
  obtain ⟨x, h1, h2, h3, h4⟩ := h (hkn ts rfl) rty op hty attr t (by
    rcases hattr with ⟨h1, h2⟩ | ⟨h1, h2, ts', h3, h4⟩
    · exact .inl ⟨h1, fun h => h2 h ts rfl⟩
    · cases h3
      exact .inr ⟨h1, h2, h4⟩) hmean w s hp hf hd
  exact ⟨x, .variable h1, h2, h3, fun b hb => .variable (h4 b hb)⟩

/-- Every declaration, from types of smaller values and the types of the declaration itself. -/
theorem decl_back (R : Run ds cfg n file defs dflt) {N m : Nat} (h1 : ∀ ts, TypedBack ds cfg file defs N m ts)
    (h2 : ∀ ts, TypedBack ds cfg file defs (N + 1) m ts) (d : Declaration) :
    DeclBack ds cfg file defs (N + 1) (m + 1) d := by
  cases d with
  | «variable» ts nm => exact variable_back (h2 ts)
  | fixedArray ts nm v => exact fixedArray_back R (h1 ts)
  | variableArray ts nm v => exact variableArray_back R (h1 ts)
  | opaqueFixedArray nm v => exact opaqueFixed_back R
  | opaqueVariableArray nm v => exact opaqueVar_back
  | string nm v => exact string_back
  | optionVariable ts nm => exact option_back (h1 ts)
  | void =>
    intro _ _ _ rty op hc
    simp [convert_type_token, convertTypeWith] at hc

/-! ## Structures -/

theorem known_of (hn : NamesDefined ds) {d : Declaration} (hd : DeclIn ds d) :
    ∀ ts, d.element = some ts → Known ds ts := by
  rintro ts hts name rfl
  exact hn d name hd hts

theorem member_back (R : Run ds cfg n file defs dflt) (hdfd : NamesDefined ds) {N : Nat} {d : Declaration} (hd : MemberIn ds d) {m : Nat}
    (hb : DeclBack ds cfg file defs N m d) {name : Str} {r : Attr × RIdent × RTy}
    (h : convertField (setup_context ds cfg) m name d = .ok r) {t : Ty}
    (ht : fieldMeaning file.constants file.enums r.1 r.2.2 = some t) {v : Val} {s : SVal}
    (hp : Pres (Xdr.program defs) t v s) (hf : Fits (Xdr.program defs) t v) (hv : v.depth < N) :
    ∃ x, DeclaredL ds cfg.leeway d x ∧ Rep (Xdr.program defs) t v x ∧
      ∀ b, Form (Xdr.program defs) t v b → DeclaredF ds cfg d x b := by
  obtain ⟨f, ts, ty, op, -, hts, hty, -, hr2, hr1⟩ := convertField_ok h
  have hcfg : (setup_context ds cfg).config = cfg := rfl
  rw [hcfg] at hr1
  have hattr : (r.1 = op.attr ∧ (op = .none → ∀ ts, d.type_specifier = some ts → UseOk ds cfg ts)) ∨
     (op = .none ∧ r.1 = .signed32 ∧ ∃ ts, d.type_specifier = some ts ∧
      (setup_context ds cfg).is_enum_type ts = true) := by
    cases op with
    | fixed => exact .inl ⟨hr1, fun h => by cases h⟩
    | «variable» => exact .inl ⟨hr1, fun h => by cases h⟩
    | none =>
      simp only at hr1
      split at hr1
      · next hb =>
        simp only [Bool.and_eq_true] at hb
        exact .inr ⟨rfl, hr1, ts, hts, hb.2⟩
      · next hb =>
        refine .inl ⟨hr1, fun _ ts' hts' hst nm e as hnm he => ?_⟩
        rw [hts] at hts'
        cases hts'
        subst hnm
        exact absurd (by simp [hst, is_enum_type_of he]) hb
  have hmean : fieldMeaning file.constants file.enums r.1 ty = some t := by
    rw [hr2] at ht
    split at ht
    · cases hr1' : r.1 with
      | none =>
        rw [hr1'] at ht
        exact ht
      | _ =>
        rw [hr1'] at ht
        simp [fieldMeaning] at ht
    · exact ht
  obtain ⟨x, h1, h2, -, h3⟩ := hb (known_of hdfd (.inr (.inl hd))) (member_atoms_ok R.wf hd) (by
      rintro ts nm m rfl
      exact R.ok.arrays ts nm m (.inr (.inl hd))) ty op hty r.1 t hattr hmean v s hp hf hv
  exact ⟨x, h1, h2, h3⟩

theorem members_back (R : Run ds cfg n file defs dflt) (hdfd : NamesDefined ds) {N m : Nat} (hb : ∀ d, DeclBack ds cfg file defs N m d)
    {name : Str} {ms : List Declaration} (hok : ∀ d ∈ ms, MemberIn ds d) {fields : List (Attr × RIdent × RTy)}
    (h : List.Forall₂ (fun d r => convertField (setup_context ds cfg) m name d = .ok r) ms fields)
    {fs : List (String × Ty)} (hfs : fieldsMeaning file.constants file.enums fields = some fs) {vs : List Val}
    {ss : List SVal} (hp : PresEach (Xdr.program defs) (fs.map (·.2)) vs ss)
    (hf : FitsEach (Xdr.program defs) (fs.map (·.2)) vs) (hd : ∀ v ∈ vs, v.depth < N) :
    ∃ xs, MembersL ds cfg.leeway ms xs ∧ RepEach (Xdr.program defs) (fs.map (·.2)) vs xs ∧
      ∀ b, Forms (Xdr.program defs) (fs.map (·.2)) vs b → MembersF ds cfg ms xs b := by
  induction h generalizing fs vs ss with
  | nil =>
    simp only [fieldsMeaning, Option.some.injEq] at hfs
    subst hfs
    cases hp
    exact ⟨[], .nil, .nil, fun b h => by cases h; exact .nil⟩
  | @cons d r ms rs ha hb' ih =>
    obtain ⟨attr, f, ty⟩ := r
    simp only [fieldsMeaning] at hfs
    split at hfs
    · split at hfs
      · next t fs' ht hfs' =>
        cases hfs
        cases hp with
        | @cons _ _ v vs s ss hp1 hp2 =>
          obtain ⟨x, h1, h2, h5⟩ := member_back R hdfd (hok d List.mem_cons_self) (hb d) ha ht hp1 hf.1
            (hd v List.mem_cons_self)
          obtain ⟨xs, h3, h4, h6⟩ := ih (fun d hd => hok d (List.mem_cons_of_mem _ hd)) hfs' hp2 hf.2
            fun w hw => hd w (List.mem_cons_of_mem _ hw)
          refine ⟨x :: xs, .cons h1 h3, .cons h2 h4, fun b hfb => ?_⟩
          cases hfb with
          | cons g1 g2 => exact .cons (h5 _ g1) (h6 _ g2)
      · cases hfs
    · cases hfs

theorem struct_back (R : Run ds cfg n file defs dflt) (hdfd : NamesDefined ds) {N : Nat} (hb : ∀ d, DeclBack ds cfg file defs N n d)
    {s : Str} {ms : List Declaration} (hm : .type (.struct s ms) ∈ ds) {id : RIdent}
    (hid : upper_camel_case_ident s = .ok id) {v : Val} {sv : SVal}
    (hp : Pres (Xdr.program defs) (.named id.str) v sv) (hf : Fits (Xdr.program defs) (.named id.str) v)
    (hd : v.depth < N + 1) :
    ∃ x, DefinedL ds cfg.leeway (.struct s ms) x ∧ Rep (Xdr.program defs) (.named id.str) v x ∧
      NumBack file (.named id.str) v x ∧
      ∀ b, Form (Xdr.program defs) (.named id.str) v b → DefinedF ds cfg (.struct s ms) x b := by
  obtain ⟨st, hst, hmem⟩ := gen_code_struct R.gen hm
  obtain ⟨h1, h2⟩ := convert_struct_ok hst
  rw [hid] at h1
  cases h1
  obtain ⟨d, hd1, hd2⟩ := defs_lookup R.defs hmem
  simp only [Item.meaning, StructItem.meaning] at hd1
  split at hd1
  · simp only [Option.map_eq_some_iff] at hd1
    obtain ⟨fs, hfs, rfl⟩ := hd1
    obtain ⟨vs, ss, rfl, hpe, hfe⟩ := pres_struct hd2 hp hf
    simp only [Val.depth] at hd
    obtain ⟨xs, h3, h4, h5⟩ := members_back R hdfd hb (fun d hd => ⟨s, ms, hm, hd⟩) h2 hfs hpe hfe fun w hw => by
      have := depth_mem hw
      omega
    exact ⟨.struct xs, .struct h3, rep_struct hd2 h4, numBack_item R.defs hmem (by simp),
      fun b hfb => .struct (h5 b (form_struct hd2 hfb))⟩
  · cases hd1

/-! ## Unions -/

theorem forms_one {env : Env} {t : Ty} {v : Val} {b : Bytes} (h : Forms env [t] [v] b) :
    ∃ b', Form env t v b' ∧ b = b' := by
  cases h with
  | cons h1 h2 =>
    cases h2
    exact ⟨_, h1, List.append_nil _⟩

theorem arm_back (R : Run ds cfg n file defs dflt) (hdfd : NamesDefined ds) {N m : Nat} {d : Declaration} (hd : ArmIn ds d)
    (hb : DeclBack ds cfg file defs N m d) {ts : List Ty}
    (h : ArmTypes (setup_context ds cfg) m file.constants file.enums d ts) {vs : List Val} {ss : List SVal}
    (hp : PresEach (Xdr.program defs) ts vs ss) (hf : FitsEach (Xdr.program defs) ts vs)
    (hv : ∀ v ∈ vs, v.depth < N) :
    ∃ x, DeclaredL ds cfg.leeway d x ∧ RepArm (Xdr.program defs) ts vs x ∧
      ∀ b, Forms (Xdr.program defs) ts vs b → DeclaredF ds cfg d x b := by
  rcases h with ⟨rfl, rfl⟩ | ⟨ty, op, t, h1, h2, rfl⟩
  · cases hp
    exact ⟨.void, .void, .void, fun b h => by cases h; exact .void⟩
  · have hc : (setup_context ds cfg).config = cfg := rfl
    rw [hc] at h2
    cases hp with
    | @cons _ _ v _ s _ hp1 hp2 =>
    cases hp2
    unfold armField at h2
    split at h2
    · next hw =>
      simp only [bne_iff_ne, ne_eq, Bool.and_eq_true, Bool.not_eq_true'] at hw
      simp only [fieldMeaning, RTy.meaning, Option.some.injEq] at h2
      subst h2
      have hop := (hasOpaque_of R.rt h1 hw.1).1
      rcases R.ok.arms hw.2 d hd with ho | ho
      · obtain ⟨bs, hl, hr, hw'⟩ := wrapper_back R hp1 hf.1
        refine ⟨_, plainOpaque_declared ho hl, .one hr, fun b hfb => ?_⟩
        obtain ⟨b', hfb', rfl⟩ := forms_one hfb
        obtain ⟨p, hp', rfl⟩ := hw' _ hfb'
        exact plainOpaque_form ho hl hp'
      · exact absurd hop ho
    · obtain ⟨x, h3, h4, -, h5⟩ := hb (known_of hdfd (.inr (.inr (.inl hd)))) (arm_atoms_ok R.wf hd) (by
          rintro ts nm m rfl
          exact R.ok.arrays ts nm m (.inr (.inr (.inl hd)))) ty op h1 op.attr t
        (.inl ⟨rfl, fun _ ts hts hst name e as hn he => by
          subst hn
          exact R.ok.positions hst d name e as (.inr (.inl hd)) hts he⟩) h2 v s hp1 hf.1
          (hv v List.mem_cons_self)
      refine ⟨x, h3, .one h4, fun b hfb => ?_⟩
      obtain ⟨b', hfb', rfl⟩ := forms_one hfb
      exact h5 _ hfb'

theorem default_back (R : Run ds cfg n file defs dflt) (hdfd : NamesDefined ds) {N m : Nat}
    {d : Declaration} (hd : DefaultIn ds d) (hno : ¬ HasOpaque ds d) (hb : DeclBack ds cfg file defs N m d) {ts : List Ty}
    (h : DefaultTypes (setup_context ds cfg) m file.constants d ts) {vs : List Val} {ss : List SVal}
    (hp : PresEach (Xdr.program defs) ts vs ss) (hf : FitsEach (Xdr.program defs) ts vs)
    (hv : ∀ v ∈ vs, v.depth < N) :
    ∃ x, DeclaredL ds cfg.leeway d x ∧ RepArm (Xdr.program defs) ts vs x ∧
      ∀ b, Forms (Xdr.program defs) ts vs b → DeclaredF ds cfg d x b := by
  rcases h with ⟨rfl, rfl⟩ | ⟨ty, op, t, h1, h2, rfl⟩
  · cases hp
    exact ⟨.void, .void, .void, fun b h => by cases h; exact .void⟩
  · have hop : op = .none := by
      by_contra hop
      exact hno (hasOpaque_of R.rt h1 hop).1
    subst hop
    cases hp with
    | @cons _ _ v _ s _ hp1 hp2 =>
    cases hp2
    obtain ⟨x, h3, h4, -, h5⟩ := hb (known_of hdfd (.inr (.inr (.inr (.inl hd))))) (default_atoms_ok R.wf hd) (by
        rintro ts nm m rfl
        exact R.ok.arrays ts nm m (.inr (.inr (.inr hd)))) ty .none h1 .none t
      (.inl ⟨rfl, fun _ ts hts hst name e as hn he => by
        subst hn
        exact R.ok.positions hst d name e as (.inr (.inr (.inl hd))) hts he⟩) h2 v s hp1 hf.1
        (hv v List.mem_cons_self)
    refine ⟨x, h3, .one h4, fun b hfb => ?_⟩
    obtain ⟨b', hfb', rfl⟩ := forms_one hfb
    exact h5 _ hfb'

theorem cond_back (R : Run ds cfg n file defs dflt) (hdfd : NamesDefined ds) {N : Nat} {u nm : Str} {b : UnionBody} {cond : TypeSpecifier}
    (hm : .type (.union u b) ∈ ds) (hcond : b.cond = .variable cond nm) {v : Value} {k : Int}
    (hs : Selects ds cond v k) {rc : RTy} {m : Nat} (hrc : condType (setup_context ds cfg) m cond = .ok rc)
    (hty : rc = .u32 ∨ rc = .bool ∨ ∃ e, .enum e ∈ file.types ∧ rc = .path e.name) {disc : Ty}
    (hdisc : rc.meaning file.constants = some disc) (hb : TypedBack ds cfg file defs N m cond) {dv : Val} {sd : SVal}
    (hp : Pres (Xdr.program defs) disc dv sd) (hf : Fits (Xdr.program defs) disc dv) (hd : dv.depth < N) :
    ∃ xd j, TypedL ds cfg.leeway cond xd ∧ Rep (Xdr.program defs) disc dv xd ∧ discriminant xd = some j ∧
      IsNumber file disc dv j ∧ ∀ b, Form (Xdr.program defs) disc dv b → TypedF ds cfg cond xd b := by
  obtain ⟨h1, h2⟩ := selects_convert R.rt hs m
  unfold condType at hrc
  split at hrc
  · next p hp' =>
    obtain ⟨ty, op⟩ := p
    cases hrc
    have := h2 ty op hp'
    subst this
    obtain ⟨xd, hx, hr, hn, hfm⟩ := hb (known_of hdfd (.inr (.inr (.inr (.inr ⟨u, b, hm, hcond⟩)))) cond rfl)
      ty .none hp' .none disc (.inl ⟨rfl, fun _ hst name e as hname he => by
      subst hname
      exact R.ok.positions hst _ name e as (.inr (.inr (.inr ⟨u, b, hm, hcond⟩))) rfl he⟩) hdisc dv sd hp hf hd
    obtain ⟨j, hj1, hj2⟩ := hn (by
      rcases hty with rfl | rfl | ⟨e, he, rfl⟩
      · cases hdisc
        exact .inl rfl
      · cases hdisc
        exact .inr (.inl rfl)
      · cases hdisc
        exact .inr (.inr ⟨e, he, rfl⟩))
    exact ⟨xd, j, hx, hr, hj1, hj2, hfm⟩
  · next e he => exact absurd he (h1 e)
  · cases hrc
  · cases hrc

theorem encode_uint {k : Nat} (h : k < 2147483648) : Rfc.encode (.enum k) = Rfc.encode (.uint k) := by
  obtain ⟨bs, hb⟩ := encode_enum (k := (k : Int)) (by omega)
  obtain ⟨bs', hb'⟩ : ∃ bs', Rfc.encode (.uint k) = some bs' := by
    simp only [Rfc.encode]
    exact Option.isSome_iff_exists.1 (unsigned_some 4 (by omega))
  rw [hb, hb', encode_discriminant (d := .enum (k : Int)) rfl (by omega) hb,
    encode_discriminant (d := .uint k) rfl (by omega) hb']

/-- Without flags a union on `bool` has a variant for either value, besides the default arm. -/
theorem serde_bool_length (R : Run ds cfg n file defs dflt) (hc : cfg.union_complement_index = true) {u nm : Str}
    {body : UnionBody} (hm : .type (.union u body) ∈ ds) (hcond : body.cond = .variable .bool nm) {id : RIdent}
    (hid : upper_camel_case_ident u = .ok id) {vars : List (String × Shape)}
    (hv : Xdr.program defs id.str = some (.enum vars)) : vars.length = 2 + body.default.toList.length := by
  obtain ⟨ut, hconv, hmem⟩ := gen_code_union R.gen hm
  obtain ⟨ct, acc, dflt, h1, h2, h3, -, h5, h6, -⟩ := convert_union_ok hconv
  rw [hid] at h1
  cases h1
  have hc' : (setup_context ds cfg).config.union_complement_index = true := hc
  have hci : cfg.union_impl_indexer = false ∧ cfg.union_impl_union = false := by
    simpa [Config.union_complement_index] using hc
  have hci' : (setup_context ds cfg).config.union_impl_indexer = false ∧
    (setup_context ds cfg).config.union_impl_union = false := hci
  obtain ⟨d, hd1, hd2⟩ := defs_lookup R.defs hmem
  obtain ⟨-, vars', hvars, rfl⟩ := union_meaning_serde hd1 (by rw [h5]; simp [hci'])
  have hd2' : Xdr.program defs ut.name.str = _ := hd2
  rw [hv] at hd2'
  cases hd2'
  rw [← (variantsMeaning_ok hvars).length_eq, h6, List.length_append]
  have hdl : (dflt.map (·.1)).toList.length = body.default.toList.length := by
    cases hdd : body.default with
    | none =>
      rw [hdd] at h3
      cases h3
      rfl
    | some d =>
      rw [hdd] at h3
      obtain ⟨o, v, -, hv, -⟩ := unionDefault_some h3
      rw [hv]
      rfl
  rw [hdl]
  have : acc.variants.length = 2 := by
    unfold unionCases at h2
    rw [hcond] at h2
    simp only [GR.bind_eq_ok, GR.ok.injEq, Prod.mk.injEq] at h2
    obtain ⟨f, hf, t, ht, -, rfl⟩ := h2
    rw [List.length_append]
    rcases boolCase_ok hf with ⟨rfl, -⟩ | ⟨c, rfl, -⟩ <;> rcases boolCase_ok ht with ⟨rfl, -⟩ | ⟨c', rfl, -⟩ <;>
      simp [boolReserved, hc', boolStep]
  omega

/-- The number of the default arm without flags. -/
theorem default_number (R : Run ds cfg n file defs dflt) (hc : cfg.union_complement_index = true) {u nm : Str}
    {body : UnionBody} {cond : TypeSpecifier} (hm : .type (.union u body) ∈ ds)
    (hcond : body.cond = .variable cond nm) {ks : List Int} (hlab : Labelled ds cond body.labels ks) {id : RIdent}
    (hid : upper_camel_case_ident u = .ok id) {vars : List (String × Shape)}
    (hv : Xdr.program defs id.str = some (.enum vars)) {d : Declaration} (hbd : body.default = some d) {m : Nat}
    (hlen : vars.length = m + 1) (h5 : ∀ i : Nat, i < m → (∃ k ∈ ks, (i : Int) ≤ k) ∨ cond = .bool ∧ i < 2)
    (h6 : ∀ k ∈ ks, k.toNat < m) (i : Nat) : UpToLabels ds body cond i ↔ i < m := by
  constructor
  · rintro (⟨l, hl, j, hj, hij⟩ | ⟨rfl, hi⟩)
    · obtain ⟨j', hj'⟩ := zip_mem_left hlab.selects.length_eq hl
      have := hj.unique R.ok.unambiguous (forall₂_zip hlab.selects hj')
      subst this
      have := h6 j (List.of_mem_zip hj').2
      omega
    · have g := serde_bool_length R hc hm hcond hid hv
      rw [hbd, hlen] at g
      simp only [Option.toList_some, List.length_cons, List.length_nil] at g
      omega
  · intro hi
    rcases h5 i hi with ⟨k, hk, hik⟩ | h
    · obtain ⟨l, hl⟩ := zip_mem_right hlab.selects.length_eq hk
      exact .inl ⟨l, (List.of_mem_zip hl).1, k, forall₂_zip hlab.selects hl, hik⟩
    · exact .inr h

theorem union_back (R : Run ds cfg n file defs dflt) (hdfd : NamesDefined ds)
    (hdf : DefaultsWritten ds cfg) {N : Nat}
    (hb : ∀ d, DeclBack ds cfg file defs N n d) (hbt : ∀ ts, TypedBack ds cfg file defs N n ts)
    {u : Str} {body : UnionBody} (hm : .type (.union u body) ∈ ds) {id : RIdent}
    (hid : upper_camel_case_ident u = .ok id) {v : Val} {sv : SVal}
    (hp : Pres (Xdr.program defs) (.named id.str) v sv) (hf : Fits (Xdr.program defs) (.named id.str) v)
    (hd : v.depth < N + 1) :
    ∃ x, DefinedL ds cfg.leeway (.union u body) x ∧ Rep (Xdr.program defs) (.named id.str) v x ∧
      NumBack file (.named id.str) v x ∧
      ∀ b, Form (Xdr.program defs) (.named id.str) v b → DefinedF ds cfg (.union u body) x b := by
  have hnb : ∀ x, NumBack file (.named id.str) v x := by
    obtain ⟨ut, hut, hmem⟩ := gen_code_union R.gen hm
    obtain ⟨_, _, _, hty, _⟩ := convert_union_ok hut
    rw [hid] at hty
    cases hty
    exact fun x => numBack_item R.defs hmem (by simp)
  suffices h : ∃ x, DefinedL ds cfg.leeway (.union u body) x ∧ Rep (Xdr.program defs) (.named id.str) v x ∧
      ∀ b, Form (Xdr.program defs) (.named id.str) v b → DefinedF ds cfg (.union u body) x b by
    obtain ⟨x, h1, h2, h3⟩ := h
    exact ⟨x, h1, h2, hnb x, h3⟩
  obtain ⟨cond, nm, ks, hcond, hlab, h31⟩ := R.ok.unions u body hm
  by_cases hc : cfg.union_complement_index = true
  · have hnu : cfg.union_impl_union = false := by
      simp [Config.union_complement_index] at hc
      exact hc.2
    obtain ⟨ty, vars, h1, h2, -, h3, m, h4, h5, h6, h7, h8⟩ :=
      serde_case R.wf R.ok.unambiguous hc R.gen R.defs hm hcond hlab
    rw [hid] at h1
    cases h1
    have hlast : ∀ i w, vars[i]? = some w → i < m ∨ i = m ∧ ∃ d, body.default = some d := by
      intro i w hi
      have hlt := (List.getElem?_eq_some_iff.1 hi).1
      cases hbd : body.default with
      | none =>
        have := h7 hbd
        exact .inl (by omega)
      | some d =>
        have := (h8 d hbd).1
        rcases (by omega : i < m ∨ i = m) with h | h
        · exact .inl h
        · exact .inr ⟨h, d, rfl⟩
    have hlabel : ∀ i : Nat, (i : Int) ∈ ks → ∃ l vid sh, (l, (i : Int)) ∈ body.labels.zip ks ∧
        vars[i]? = some (vid, sh) ∧ (sh = .unit ∨ ∃ t, sh = .newtype t) ∧
        ArmTypes (setup_context ds cfg) n file.constants file.enums l.2 sh.types := by
      intro i hi
      obtain ⟨l, hl⟩ := zip_mem_right hlab.selects.length_eq hi
      obtain ⟨a, vid, sh, -, -, g1, g2, g3⟩ := h3 l _ hl
      rw [Int.toNat_natCast] at g1
      exact ⟨l, _, sh, hl, g1, g2, g3⟩
    obtain ⟨i, vs, ss, vn, sh, rfl, hi32, hi, hpe, hfe⟩ := pres_enum h2 (by
      intro w hw
      obtain ⟨i, hi⟩ := List.mem_iff_getElem?.1 hw
      rcases hlast i w hi with hlt | ⟨rfl, d, hbd⟩
      swap
      · obtain ⟨-, sh, g1, -, g2, -⟩ := h8 d hbd
        rw [hi] at g1
        cases g1
        exact g2
      by_cases hik : (i : Int) ∈ ks
      · obtain ⟨l, vid, sh, -, g1, g2, -⟩ := hlabel i hik
        rw [hi] at g1
        cases g1
        exact g2
      · obtain ⟨vn, g1, -⟩ := h4 i (by omega) hik
        rw [hi] at g1
        cases g1
        exact .inl rfl) hp hf
    simp only [Val.depth] at hd
    rcases hlast i _ hi with hlt | ⟨rfl, d, hbd⟩
    swap
    · obtain ⟨hlen, sh', g1, -, g2, g3⟩ := h8 d hbd
      rw [hi] at g1
      cases g1
      obtain ⟨hno, hle⟩ : ¬ HasOpaque ds d ∧ ∀ cond nm, body.cond = .variable cond nm → ∀ l ∈ body.labels, ∀ k,
          Selects ds cond l.1 k → k < 2147483647 := hdf u body d hm hbd hc
      have hnext := default_number R hc hm hcond hlab hid h2 hbd hlen h5 h6
      have hsmall : i < 2147483648 := by
        cases i with
        | zero => omega
        | succ i =>
          rcases h5 i (by omega) with ⟨k, hk, hik⟩ | ⟨-, hik⟩
          · obtain ⟨l, hl⟩ := zip_mem_right hlab.selects.length_eq hk
            have := hle cond nm hcond l (List.of_mem_zip hl).1 k (forall₂_zip hlab.selects hl)
            omega
          · omega
      obtain ⟨x, hx, hr, hfm⟩ := default_back R hdfd ⟨u, body, hm, hbd⟩ hno (hb d) g3 hpe hfe fun w hw => by
        have := depth_mem hw
        omega
      refine ⟨.union (.uint i) x, .next (by simp [Config.leeway, hc]) hcond hbd hsmall hnext hx,
        rep_variant h2 hi g2 hi32 hr (encode_uint hsmall), fun b hfb => ?_⟩
      obtain ⟨vn', sh', cs, -, hi', hcs, rfl⟩ := form_enum h2 hfb
      rw [hi] at hi'
      cases hi'
      exact .next (by simp [Config.leeway, hc]) hcond hbd hsmall hnext (hfm _ hcs)
    have hsmall : i < 2147483648 := by
      rcases h5 i (by omega) with ⟨k, hk, hik⟩ | ⟨-, hik⟩
      · have := h31 hc k hk
        omega
      · omega
    by_cases hik : (i : Int) ∈ ks
    · obtain ⟨l, vid, sh', hl, g1, g2, g3⟩ := hlabel i hik
      rw [hi] at g1
      cases g1
      have hlm := (List.of_mem_zip hl).1
      obtain ⟨x, hx, hr, hfm⟩ := arm_back R hdfd ⟨u, body, l.1, hm, hlm⟩ (hb l.2) g3 hpe hfe fun w hw => by
        have := depth_mem hw
        omega
      refine ⟨.union (.uint i) x, .bareArm (v := l.1) (d := l.2) (by simp [Config.leeway, hnu]) hcond hlm
        (forall₂_zip hlab.selects hl) hx, rep_variant h2 hi g2 hi32 hr (encode_uint hsmall), fun b hfb => ?_⟩
      obtain ⟨vn', sh', cs, -, hi', hcs, rfl⟩ := form_enum h2 hfb
      rw [hi] at hi'
      cases hi'
      exact .bareArm (v := l.1) (d := l.2) (by simp [Config.leeway, hnu]) hcond hlm
        (forall₂_zip hlab.selects hl) (hfm _ hcs)
    · obtain ⟨vn', g1, -⟩ := h4 i (by omega) hik
      rw [hi] at g1
      cases g1
      cases hpe
      suffices h : (∀ l ∈ body.labels, ¬ Selects ds cond l.1 (i : Int)) ∧
          ((∃ l ∈ body.labels, ∃ j, Selects ds cond l.1 j ∧ (i : Int) ≤ j) ∨ cond = .bool ∧ i < 2) by
        refine ⟨.union (.uint i) .void, .gap (by simp [Config.leeway, hc]) hcond h.1 h.2,
          rep_variant h2 hi (.inl rfl) hi32 .void (encode_uint hsmall), fun b hfb => ?_⟩
        obtain ⟨vn', sh', cs, -, hi', hcs, rfl⟩ := form_enum h2 hfb
        rw [hi] at hi'
        cases hi'
        cases hcs
        rw [List.append_nil]
        exact .gap (by simp [Config.leeway, hc]) hcond h.1 h.2
      constructor
      · intro l hl hs
        obtain ⟨k, hk⟩ := zip_mem_left hlab.selects.length_eq hl
        have := hs.unique R.ok.unambiguous (forall₂_zip hlab.selects hk)
        subst this
        exact hik (List.of_mem_zip hk).2
      · rcases h5 i (by omega) with ⟨k, hk, hik⟩ | h
        · obtain ⟨l, hl⟩ := zip_mem_right hlab.selects.length_eq hk
          exact .inl ⟨l, (List.of_mem_zip hl).1, k, forall₂_zip hlab.selects hl, hik⟩
        · exact .inr h
  · by_cases hu : cfg.union_impl_union = true
    · have hi : cfg.union_impl_indexer = false := by
        by_contra hi
        exact R.unionTraits ⟨by simpa using hi, hu⟩
      obtain ⟨ty, vars, impl, disc, rc, h1, h2, hnd, h3, h4, h5, h6, h7⟩ :=
        union_case R.wf R.ok.unambiguous R.enums hi hu R.gen R.defs hm hcond hlab
      rw [hid] at h1
      cases h1
      obtain ⟨i, dv, vs, sd, ss, vn, ts, rfl, hvi, hname, hpd, hfd, hpe, hfe⟩ := pres_union h2 hp hf
      simp only [Val.depth] at hd
      have hdep : ∀ w ∈ dv :: vs, w.depth < N := fun w hw => by
        have := depth_mem hw
        omega
      obtain ⟨hrc, hty⟩ := h3 (labels_ne R.wf hm)
      obtain ⟨l0, hl0⟩ := List.exists_mem_of_ne_nil _ (labels_ne R.wf hm)
      obtain ⟨k0, hlk0⟩ := zip_mem_left hlab.selects.length_eq hl0
      obtain ⟨xd, j, hxd, hrd, hj, hnum, hfd'⟩ := cond_back R hdfd hm hcond (forall₂_zip hlab.selects hlk0) hrc hty h4
        (hbt cond) hpd hfd (hdep dv List.mem_cons_self)
      have hdep' : ∀ w ∈ vs, w.depth < N := fun w hw => hdep w (List.mem_cons_of_mem _ hw)
      by_cases hjk : j ∈ ks
      · obtain ⟨l, hl⟩ := zip_mem_right hlab.selects.length_eq hjk
        obtain ⟨a, vid, ts', i', -, -, hv', ht, hn⟩ := h5 l j hl
        have hn' := hn dv hnum
        rw [hname] at hn'
        cases hn'
        obtain ⟨rfl, hts⟩ := at_unique hnd hvi hv'
        cases hts
        have hlm := (List.of_mem_zip hl).1
        obtain ⟨x, hx, hr, hfm⟩ := arm_back R hdfd ⟨u, body, l.1, hm, hlm⟩ (hb l.2) ht hpe hfe hdep'
        refine ⟨.union xd x, .arm (v := l.1) (d := l.2) hcond hlm (forall₂_zip hlab.selects hl) hxd hj hx,
          rep_union h2 hvi (first_of_nodup hnd hvi) hrd hname hr, fun b hfb => ?_⟩
        obtain ⟨vn', d0, ts'', b1, cs, hb1, -, hcall, hcs, rfl⟩ := form_union h2 hfb
        have hcv := hcall.1
        rw [hvi] at hcv
        cases hcv
        exact .arm (v := l.1) (d := l.2) (by simp [Config.leeway, hu]) hcond hlm (forall₂_zip hlab.selects hl) (hfd' _ hb1) hj (hfm _ hcs)
      · have hn := h6 j hjk dv hnum
        rw [hname] at hn
        cases hbd : body.default with
        | none =>
          rw [hbd] at hn
          cases hn
        | some d =>
          rw [hbd] at hn
          simp only [Option.isSome_some, if_true, Res.ok.injEq] at hn
          subst hn
          obtain ⟨i', ts', hv', ht⟩ := h7 d hbd
          obtain ⟨rfl, hts⟩ := at_unique hnd hvi hv'
          cases hts
          obtain ⟨x, hx, hr, hfm⟩ := default_back R hdfd ⟨u, body, hm, hbd⟩ (R.ok.defaults hu d ⟨u, body, hm, hbd⟩) (hb d) ht hpe hfe hdep'
          suffices h : ∀ l ∈ body.labels, ¬ Selects ds cond l.1 j by
            refine ⟨.union xd x, .default hcond hbd hxd hj h hx,
              rep_union h2 hvi (first_of_nodup hnd hvi) hrd hname hr, fun b hfb => ?_⟩
            obtain ⟨vn', d0, ts'', b1, cs, hb1, -, hcall, hcs, rfl⟩ := form_union h2 hfb
            have hcv := hcall.1
            rw [hvi] at hcv
            cases hcv
            exact .default (by simp [Config.leeway, hu]) hcond hbd (hfd' _ hb1) hj h (hfm _ hcs)
          intro l hl hs
          obtain ⟨k, hk⟩ := zip_mem_left hlab.selects.length_eq hl
          have := hs.unique R.ok.unambiguous (forall₂_zip hlab.selects hk)
          subst this
          exact hjk (List.of_mem_zip hk).2
    · have hi : cfg.union_impl_indexer = true := by
        simp [Config.union_complement_index] at hc
        by_contra hi
        exact hu (hc (by simpa using hi))
      have hnu : cfg.union_impl_union = false := by simpa using hu
      obtain ⟨ty, vars, impl, h1, h2, hnd, h3, h4, h5⟩ :=
        indexer_case R.wf R.ok.unambiguous hi hnu R.gen R.defs hm hcond hlab
      rw [hid] at h1
      cases h1
      have hnot : ∀ j, 0 ≤ j ∧ j ≤ 4294967295 → j ∉ ks → ∀ i vn fs vs k, vars[i]? = some (vn, fs) →
          impl.index i vs = .ok k → impl.name_by_index (Int32.ofInt (asI32 j)) ≠ .ok vn := by
        intro j hj hjk i vn fs vs k hvi hix hn
        rw [h4 j hj hjk] at hn
        cases hbd : body.default with
        | none =>
          rw [hbd] at hn
          cases hn
        | some d =>
          rw [hbd] at hn
          cases hn
          obtain ⟨i', fs', h6, -, h7⟩ := h5 d hbd
          obtain ⟨rfl, -⟩ := at_unique hnd hvi h6
          rw [h7] at hix
          cases hix
      obtain ⟨i, vs, ss, vn, fs, idx, rfl, hvi, hix, hname, hpe, hfe⟩ := pres_indexer h2 hp hf
      simp only [Val.depth] at hd
      obtain ⟨j, hj, rfl⟩ := asI32_surj idx
      by_cases hjk : j ∈ ks
      · obtain ⟨l, hl⟩ := zip_mem_right hlab.selects.length_eq hjk
        obtain ⟨a, vid, fs', i', -, -, hv', ht, hidx, hn⟩ := h3 l j hl
        rw [hname] at hn
        cases hn
        obtain ⟨rfl, rfl⟩ := at_unique hnd hvi hv'
        have hlm := (List.of_mem_zip hl).1
        obtain ⟨x, hx, hr, hfm⟩ := arm_back R hdfd ⟨u, body, l.1, hm, hlm⟩ (hb l.2) ht hpe hfe fun w hw => by
          have := depth_mem hw
          omega
        have hjn : ((j.toNat : Nat) : Int) = j := by omega
        refine ⟨.union (.uint j.toNat) x, .bareArm (v := l.1) (d := l.2) (by simp [Config.leeway, hnu]) hcond hlm
          (by rw [hjn]; exact forall₂_zip hlab.selects hl) hx,
          rep_indexer h2 hvi (first_of_nodup hnd hvi) hix hname hr ?_, fun b hfb => ?_⟩
        · rw [toInt_ofInt (asI32_range hj)]
          simp only [Rfc.encode]
          rw [asI32_signed hj]
          obtain ⟨bs', hb'⟩ : ∃ bs', Rfc.encode (.uint j.toNat) = some bs' := by
            simp only [Rfc.encode]
            exact Option.isSome_iff_exists.1 (unsigned_some 4 (by omega))
          have := encode_discriminant (d := .uint j.toNat) rfl (by omega) hb'
          simp only [Rfc.encode] at hb'
          rw [hb', this, Int.toNat_natCast]
        · obtain ⟨w, vn', fs', cs, hw, hvn, hcall, hcs, rfl⟩ := form_indexer h2 hfb
          have hcv := hcall.1
          rw [hvi] at hcv
          cases hcv
          have hwj : w = j.toNat := by
            obtain ⟨j', hj', hwj'⟩ := asI32_surj (Int32.ofNat w)
            rw [hwj'] at hvn
            by_cases hjk' : j' ∈ ks
            · obtain ⟨l', hl'⟩ := zip_mem_right hlab.selects.length_eq hjk'
              obtain ⟨a', vid', fs'', i'', -, -, hv'', -, hidx', hn'⟩ := h3 l' j' hl'
              rw [hn'] at hvn
              simp only [Res.ok.injEq] at hvn
              rw [hvn] at hv''
              obtain ⟨rfl, -⟩ := at_unique hnd hvi hv''
              have hjj := (hidx []).symm.trans (hidx' [])
              simp only [Res.ok.injEq] at hjj
              exact index_eq hw hj (hwj'.trans hjj.symm)
            · exact absurd hvn (hnot j' hj' hjk' _ _ _ _ _ hvi (hidx []))
          subst hwj
          exact .bareArm (v := l.1) (d := l.2) (by simp [Config.leeway, hnu]) hcond hlm
            (by rw [hjn]; exact forall₂_zip hlab.selects hl) (hfm _ hcs)
      · exact absurd hname (hnot j hj hjk _ _ _ _ _ hvi hix)

/-! ## All types -/

/-- Types of which every value has one form. -/
def OneForm : Ty → Prop
  | .i32 | .u32 | .i64 | .u64 | .f32 | .f64 => True
  | _ => False

theorem one_form {env : Env} {t : Ty} {v : Val} {x : XVal} (h : Rep env t v x) {b : Bytes} (hf : Form env t v b)
    (ht : OneForm t) : Rfc.encode x = some b := by
  obtain ⟨y, hy, he⟩ := h.xdr
  rw [← he]
  cases hf with
  | i32 hk =>
    rw [toXdr] at hy
    cases hy
    exact encode_word hk
  | u32 hk =>
    rw [toXdr] at hy
    cases hy
    simp only [Rfc.encode, UInt32.toNat_ofNat', Nat.mod_eq_of_lt hk, Rfc.unsigned, Wire.word]
    rw [if_pos (by omega)]
  | f32 hk =>
    rw [toXdr] at hy
    cases hy
    simp only [Rfc.encode, UInt32.toNat_ofNat', Nat.mod_eq_of_lt hk, Rfc.unsigned, Wire.word]
    rw [if_pos (by omega)]
  | u64 hk =>
    rw [toXdr] at hy
    cases hy
    simp only [Rfc.encode, UInt64.toNat_ofNat', Nat.mod_eq_of_lt hk, Rfc.unsigned, Wire.dword]
    rw [if_pos (by omega)]
  | f64 hk =>
    rw [toXdr] at hy
    cases hy
    simp only [Rfc.encode, UInt64.toNat_ofNat', Nat.mod_eq_of_lt hk, Rfc.unsigned, Wire.dword]
    rw [if_pos (by omega)]
  | i64 hk =>
    rename_i k
    rw [toXdr] at hy
    cases hy
    have h1 := Int64.le_toInt (Int64.ofNat k)
    have h2 := Int64.toInt_lt (Int64.ofNat k)
    simp only [Rfc.encode, Rfc.signed, Wire.dword]
    rw [if_pos ⟨by omega, by omega⟩]
    congr 2
    rw [Int64.toInt_ofNat']
    simp only [Int.bmod, Int64.size]
    have : (2 ^ (8 * 8) : Int) = 18446744073709551616 := by decide
    rw [this]
    omega
  | _ => exact ht.elim

theorem char_form {w : Nat} (hw : w < 2 ^ 32) :
    TypedF ds cfg (.char true) (.int (Int8.ofNat w).toInt) (Wire.word w) := by
  have h1 := Int8.le_toInt (Int8.ofNat w)
  have h2 := Int8.toInt_lt (Int8.ofNat w)
  refine .char hw (by omega) (by omega) ?_
  rw [Int8.toInt_ofNat']
  simp only [Int.bmod, Int8.size]
  omega

theorem short_form {w : Nat} (hw : w < 2 ^ 32) :
    TypedF ds cfg (.short true) (.int (Int16.ofNat w).toInt) (Wire.word w) := by
  have h1 := Int16.le_toInt (Int16.ofNat w)
  have h2 := Int16.toInt_lt (Int16.ofNat w)
  refine .short hw (by omega) (by omega) ?_
  rw [Int16.toInt_ofNat']
  simp only [Int.bmod, Int16.size]
  omega

theorem uchar_form {w : Nat} (hw : w < 2 ^ 32) :
    TypedF ds cfg (.char false) (.uint (UInt8.ofNat w).toNat) (Wire.word w) := by
  rw [UInt8.toNat_ofNat']
  exact .uchar hw

theorem ushort_form {w : Nat} (hw : w < 2 ^ 32) :
    TypedF ds cfg (.short false) (.uint (UInt16.ofNat w).toNat) (Wire.word w) := by
  rw [UInt16.toNat_ofNat']
  exact .ushort hw

/-- A type without name. -/
theorem prim_back {N m : Nat} {ts : TypeSpecifier} (hn : ∀ name, ts ≠ .identifier name) {rty : RTy} {t : Ty}
    (hc : ∀ ct cxt, convert_primitive_token ct cxt ts = .ok (rty, .none))
    (hm : rty.meaning file.constants = some t)
    (h : ∀ v s, Pres (Xdr.program defs) t v s → ∃ x, TypedL ds cfg.leeway ts x ∧ Rep (Xdr.program defs) t v x ∧
      NumBack file t v x ∧ ∀ b, Form (Xdr.program defs) t v b → TypedF ds cfg ts x b) : TypedBack ds cfg file defs N m ts := by
  intro _ rty' op hc' attr t' hattr hmean v s hp _ _
  rw [hc] at hc'
  cases hc'
  have := attr_plain hattr hn
  subst this
  simp only [OpaqueType.attr, fieldMeaning] at hmean
  rw [hm] at hmean
  cases hmean
  exact h v s hp

theorem typed_back (R : Run ds cfg n file defs dflt) (hdfd : NamesDefined ds)
    (hdf : DefaultsWritten ds cfg) {N : Nat}
    (hb : ∀ d, DeclBack ds cfg file defs N n d) (hbt : ∀ ts, TypedBack ds cfg file defs N n ts) {m : Nat}
    (hbd : ∀ d, DeclBack ds cfg file defs (N + 1) m d) (ts : TypeSpecifier) :
    TypedBack ds cfg file defs (N + 1) m ts := by
  have hno : ∀ {t : Ty} {v x}, t ≠ .u32 → t ≠ .bool → (∀ s, t ≠ .named s) → NumBack file t v x := numBack_ty
  cases ts with
  | int b =>
    cases b with
    | true =>
      refine prim_back (by simp) (fun _ _ => rfl) rfl fun v s hp => ?_
      cases hp with
      | i32 a =>
        have h1 := Int32.le_toInt a
        have h2 := Int32.toInt_lt a
        have hrep : Rep (Xdr.program defs) .i32 (.i32 a) (.int a.toInt) := by
          have := rep_int (env := Xdr.program defs) (k := a.toInt) (by omega) (by omega)
          rwa [Int32.ofInt_toInt] at this
        refine ⟨.int a.toInt, .int (by omega) (by omega), hrep, hno (by simp) (by simp) (by simp), fun b hfb => .int (one_form hrep hfb trivial)⟩
    | false =>
      refine prim_back (by simp) (fun _ _ => rfl) rfl fun v s hp => ?_
      cases hp with
      | u32 a =>
        have h1 := a.toNat_lt
        have hrep : Rep (Xdr.program defs) .u32 (.u32 a) (.uint a.toNat) := by
          have := rep_uint (env := Xdr.program defs) h1
          rwa [UInt32.ofNat_toNat] at this
        refine ⟨.uint a.toNat, .uint h1, hrep, fun _ => ⟨_, rfl, rfl⟩, fun b hfb => .uint (one_form hrep hfb trivial)⟩
  | hyper b =>
    cases b with
    | true =>
      refine prim_back (by simp) (fun _ _ => rfl) rfl fun v s hp => ?_
      cases hp with
      | i64 a =>
        have h1 := Int64.le_toInt a
        have h2 := Int64.toInt_lt a
        have hrep : Rep (Xdr.program defs) .i64 (.i64 a) (.hyper a.toInt) := by
          have := rep_hyper (env := Xdr.program defs) (k := a.toInt) (by omega) (by omega)
          rwa [Int64.ofInt_toInt] at this
        refine ⟨.hyper a.toInt, .hyper (by omega) (by omega), hrep, hno (by simp) (by simp) (by simp), fun b hfb => .hyper (one_form hrep hfb trivial)⟩
    | false =>
      refine prim_back (by simp) (fun _ _ => rfl) rfl fun v s hp => ?_
      cases hp with
      | u64 a =>
        have h1 := a.toNat_lt
        have hrep : Rep (Xdr.program defs) .u64 (.u64 a) (.uhyper a.toNat) := by
          have := rep_uhyper (env := Xdr.program defs) h1
          rwa [UInt64.ofNat_toNat] at this
        refine ⟨.uhyper a.toNat, .uhyper h1, hrep, hno (by simp) (by simp) (by simp), fun b hfb => .uhyper (one_form hrep hfb trivial)⟩
  | float =>
    refine prim_back (by simp) (fun _ _ => rfl) rfl fun v s hp => ?_
    cases hp with
    | f32 a =>
      have h1 := a.toNat_lt
      have hrep : Rep (Xdr.program defs) .f32 (.f32 a) (.float a.toNat) := by
        have := rep_float (env := Xdr.program defs) h1
        rwa [UInt32.ofNat_toNat] at this
      refine ⟨.float a.toNat, .float h1, hrep, hno (by simp) (by simp) (by simp), fun b hfb => .float (one_form hrep hfb trivial)⟩
  | double =>
    refine prim_back (by simp) (fun _ _ => rfl) rfl fun v s hp => ?_
    cases hp with
    | f64 a =>
      have h1 := a.toNat_lt
      have hrep : Rep (Xdr.program defs) .f64 (.f64 a) (.double a.toNat) := by
        have := rep_double (env := Xdr.program defs) h1
        rwa [UInt64.ofNat_toNat] at this
      refine ⟨.double a.toNat, .double h1, hrep, hno (by simp) (by simp) (by simp), fun b hfb => .double (one_form hrep hfb trivial)⟩
  | bool =>
    refine prim_back (by simp) (fun _ _ => rfl) rfl fun v s hp => ?_
    cases hp with
    | bool b =>
      refine ⟨.bool b, .bool, rep_bool _ b, fun _ => ⟨_, rfl, rfl⟩, fun b hfb => ?_⟩
      cases hfb with
      | bool hw => exact .bool hw
  | char b =>
    cases b with
    | true =>
      refine prim_back (by simp) (fun _ _ => rfl) rfl fun v s hp => ?_
      cases hp with
      | i8 a =>
        have h1 := Int8.le_toInt a
        have h2 := Int8.toInt_lt a
        refine ⟨.int a.toInt, .char (by omega) (by omega), ?_, hno (by simp) (by simp) (by simp), fun b hfb => by cases hfb; exact char_form (by assumption)⟩
        have := rep_i8 (env := Xdr.program defs) (k := a.toInt) (by omega) (by omega)
        rwa [Int8.ofInt_toInt] at this
    | false =>
      refine prim_back (by simp) (fun _ _ => rfl) rfl fun v s hp => ?_
      cases hp with
      | u8 a =>
        have h1 := a.toNat_lt
        refine ⟨.uint a.toNat, .uchar h1, ?_, hno (by simp) (by simp) (by simp), fun b hfb => by cases hfb; exact uchar_form (by assumption)⟩
        have := rep_u8 (env := Xdr.program defs) h1
        rwa [UInt8.ofNat_toNat] at this
  | short b =>
    cases b with
    | true =>
      refine prim_back (by simp) (fun _ _ => rfl) rfl fun v s hp => ?_
      cases hp with
      | i16 a =>
        have h1 := Int16.le_toInt a
        have h2 := Int16.toInt_lt a
        refine ⟨.int a.toInt, .short (by omega) (by omega), ?_, hno (by simp) (by simp) (by simp), fun b hfb => by cases hfb; exact short_form (by assumption)⟩
        have := rep_i16 (env := Xdr.program defs) (k := a.toInt) (by omega) (by omega)
        rwa [Int16.ofInt_toInt] at this
    | false =>
      refine prim_back (by simp) (fun _ _ => rfl) rfl fun v s hp => ?_
      cases hp with
      | u16 a =>
        have h1 := a.toNat_lt
        refine ⟨.uint a.toNat, .ushort h1, ?_, hno (by simp) (by simp) (by simp), fun b hfb => by cases hfb; exact ushort_form (by assumption)⟩
        have := rep_u16 (env := Xdr.program defs) h1
        rwa [UInt16.ofNat_toNat] at this
  | identifier name =>
    intro hkn rty op hc attr ty hattr hmean v s hp hf hd
    simp only [convert_primitive_token] at hc
    have hpath : ∀ {id : RIdent}, (∀ as e, typeOf ds name ≠ some (.enum e as)) → AttrOk ds cfg (.identifier name)
        attr .none → fieldMeaning file.constants file.enums attr (.path id) = some ty → ty = .named id.str := by
      intro id hne hattr hmean
      rcases hattr with ⟨rfl, -⟩ | ⟨-, -, h⟩
      · simp only [OpaqueType.attr, fieldMeaning, RTy.meaning, Option.some.injEq] at hmean
        exact hmean.symm
      · obtain ⟨as, -, h'⟩ := enum_name R.ok.unambiguous h
        exact absurd h' (hne _ _)
    cases ht : typeOf ds name with
    | none => exact absurd ht (hkn name rfl)
    | some td =>
    obtain ⟨hmem, hname⟩ := typeOf_mem ht
    cases td with
    | declaration d =>
      rcases resolve_type_ok R.rt hc with ⟨d', hd', hct⟩ | ⟨hno, -⟩
      · rw [ht] at hd'
        cases hd'
        have hty : TypedefIn ds d := hmem
        have hat : attr = op.attr := by
          rcases hattr with ⟨h, -⟩ | ⟨-, -, h⟩
          · exact h
          · obtain ⟨as, -, h'⟩ := enum_name R.ok.unambiguous h
            rw [ht] at h'
            cases h'
        obtain ⟨x, h1, h2, h3, h4⟩ := hbd d (known_of hdfd (.inl hty)) (typedef_atoms_ok R.wf hty) (by
            rintro ts nm m rfl
            exact R.ok.arrays ts nm m (.inl hty)) rty op hct attr ty (.inl ⟨hat, by
          intro _ ts hts hst nm e as hnm he
          subst hnm
          exact R.ok.positions hst d nm e as (.inl hty) hts he⟩) hmean v s hp hf hd
        exact ⟨x, .name ht (.typedef h1), h2, h3, fun b hfb => .name ht (.typedef (h4 b hfb))⟩
      · exact absurd ht (hno d)
    | enum e as =>
      cases hname
      rcases resolve_type_ok R.rt hc with ⟨d', hd', -⟩ | ⟨-, id, hid, hr⟩
      · rw [ht] at hd'
        cases hd'
      · cases hr
        obtain ⟨x, h1, h2, h3, h4⟩ := enum_back R hmem hid (by
          rcases hattr with ⟨h, huse⟩ | ⟨-, h, -⟩
          · exact .inl ⟨h, fun hst => huse rfl hst name name as rfl ht⟩
          · exact .inr h) hmean hp hf
        exact ⟨x, .name ht h1, h2, h3, fun b hfb => .name ht (h4 b hfb)⟩
    | struct s ms =>
      cases hname
      rcases resolve_type_ok R.rt hc with ⟨d', hd', -⟩ | ⟨-, id, hid, hr⟩
      · rw [ht] at hd'
        cases hd'
      · cases hr
        have := hpath (by simp [ht]) hattr hmean
        subst this
        obtain ⟨x, h1, h2, h3, h4⟩ := struct_back R hdfd hb hmem hid hp hf hd
        exact ⟨x, .name ht h1, h2, h3, fun b hfb => .name ht (h4 b hfb)⟩
    | union u b =>
      cases hname
      rcases resolve_type_ok R.rt hc with ⟨d', hd', -⟩ | ⟨-, id, hid, hr⟩
      · rw [ht] at hd'
        cases hd'
      · cases hr
        have := hpath (by simp [ht]) hattr hmean
        subst this
        obtain ⟨x, h1, h2, h3, h4⟩ := union_back R hdfd hdf hb hbt hmem hid hp hf hd
        exact ⟨x, .name ht h1, h2, h3, fun b hfb => .name ht (h4 b hfb)⟩
  | quadruple => exact fun _ _ _ hc => by cases hc
  | enum _ => exact fun _ _ _ hc => by cases hc
  | struct _ => exact fun _ _ _ hc => by cases hc
  | union _ => exact fun _ _ _ hc => by cases hc
  | void => exact fun _ _ _ hc => by cases hc

/-- Every value of a generated type stands for a value of its XDR type. -/
theorem back (R : Run ds cfg n file defs dflt) (hdfd : NamesDefined ds)
    (hdf : DefaultsWritten ds cfg) (N : Nat) :
    ∀ m, (∀ ts, TypedBack ds cfg file defs N m ts) ∧ ∀ d, DeclBack ds cfg file defs N m d := by
  induction N with
  | zero => exact fun m => ⟨fun _ _ _ _ _ _ _ _ _ _ _ _ _ h => absurd h (Nat.not_lt_zero _),
      fun _ _ _ _ _ _ _ _ _ _ _ _ _ _ _ h => absurd h (Nat.not_lt_zero _)⟩
  | succ N ihN =>
    intro m
    induction m with
    | zero =>
      have hd : ∀ d, DeclBack ds cfg file defs (N + 1) 0 d := fun _ _ _ _ _ _ hc => by cases hc
      exact ⟨typed_back R hdfd hdf (ihN n).2 (ihN n).1 hd, hd⟩
    | succ m ihm =>
      have hd : ∀ d, DeclBack ds cfg file defs (N + 1) (m + 1) d := decl_back R (ihN m).1 ihm.1
      exact ⟨typed_back R hdfd hdf (ihN n).2 (ihN n).1 hd, hd⟩

end
end Xdr.Rpcgen
