import Verif.RpcgenProofs.Types
import Verif.RpcgenProofs.EndToEndRep
import Verif.Props.Writing
import Verif.Props.EndToEnd
/-!
# Properties C51 and C52: structures and typedefs

`DeclType` and `SpecType` (`Spec/RustTypes.lean`) are the table of Rust types, `LeadsTo` follows typedef
names. `Xdr.program defs` is what the generated source means to rustc.
-/

namespace Xdr.Rpcgen

/-! ## C51 -/

/-- The letters of a name, in lower case. -/
def letters (s : Str) : Str := (s.filter (· ≠ '_')).map toLower

/-- The field is called as declared, apart from underscores and case; keywords become `r#..`. -/
def FieldName (declared field : Str) : Prop :=
  if rust_reserved declared then letters field = 'r' :: '#' :: letters declared
  else letters field = letters declared

/-- The member's type is an enum of the file. -/
def EnumMember (ds : List Definition) (d : Declaration) : Prop :=
  ∃ e as, d.type_specifier = some (.identifier e) ∧ .type (.enum e as) ∈ ds

/-- The attribute of a field. -/
def FieldAttr (ds : List Definition) (cfg : Config) (d : Declaration) : OpaqueType → Attr → Prop
  | .fixed, a => a = .fixed
  | .variable, a => a = .variable
  | .none, a => (cfg.enum_impl_std_trait = true ∧ EnumMember ds d ∧ a = .signed32) ∨
      (¬ (cfg.enum_impl_std_trait = true ∧ EnumMember ds d) ∧ a = .none)

/-- Field `i`, of type `t` with attribute `a`, is what the declaration `d` of a member of structure `s`
becomes. A member of the type of the structure itself is put in a `Box`. -/
structure FieldOf (ds : List Definition) (cfg : Config) (s : Str) (d : Declaration) (f : Attr × RIdent × RTy) :
    Prop where
  name : ∃ nm, d.name = some nm ∧ FieldName nm f.2.1.text
  type : ∃ ty op, DeclType ds cfg.remove_typedef d ty op ∧ FieldAttr ds cfg d op f.1 ∧
    ((d.type_specifier = some (.identifier s) ∧ f.2.2 = .box ty) ∨
      (d.type_specifier ≠ some (.identifier s) ∧ f.2.2 = ty))

theorem toLower_toLower_map (s : Str) : (s.map toLower).map toLower = s.map toLower := by
  rw [List.map_map]
  exact List.map_congr_left fun c _ => toLower_toLower c

theorem mkIdent_text {s : Str} {i : RIdent} (h : mkIdent s = .ok i) : i.text = s := by
  rcases mkIdent_ok h with ⟨h1, rfl⟩ | ⟨h1, rfl⟩ <;> simp [RIdent.text, h1]

theorem fieldIdent_name {f : Str} {i : RIdent} (h : fieldIdent f = .ok i) : FieldName f i.text := by
  rw [mkIdent_text h]
  unfold FieldName letters
  rw [snake_case_letters, toLower_toLower_map]
  by_cases hr : rust_reserved f = true
  · rw [if_pos hr, if_pos hr]
    rfl
  · rw [if_neg hr, if_neg hr]

theorem is_enum_type_iff {ds : List Definition} {cfg : Config} {d : Declaration} {ts : TypeSpecifier}
    (hts : d.type_specifier = some ts) :
    (setup_context ds cfg).is_enum_type ts = true ↔ EnumMember ds d := by
  constructor
  · intro h
    obtain ⟨name, as, rfl, hm⟩ := is_enum_type_ok h
    exact ⟨name, as, hts, hm⟩
  · rintro ⟨e, as, he, hm⟩
    rw [hts] at he
    cases he
    simp only [Context.is_enum_type, List.any_eq_true]
    exact ⟨_, mem_typedefs_enum hm, by simp⟩

/-- C51. In the source, a struct has one field per declaration of a member, in the same order, with its
name, its type and its attribute. -/
theorem C51_fields {ds : List Definition} {cfg : Config} {n : Nat} {file : RustFile}
    (hg : gen_code n ds cfg = .ok file) {name : Str} {ms : List Declaration}
    (hm : .type (.struct name ms) ∈ ds) :
    ∃ s, .struct s ∈ file.types ∧ upper_camel_case_ident name = .ok s.name ∧
      List.Forall₂ (FieldOf ds cfg name) ms s.fields := by
  obtain ⟨s, hs, hmem⟩ := gen_code_struct hg hm
  obtain ⟨h1, h2⟩ := convert_struct_ok hs
  refine ⟨s, hmem, h1, h2.imp fun d r h => ?_⟩
  obtain ⟨f, ts, ty, op, hf, hts, hty, hi, ht, ha⟩ := convertField_ok h
  refine ⟨⟨f, hf, fieldIdent_name hi⟩, ty, op, decl_sound hty, ?_, ?_⟩
  · have hcfg : (setup_context ds cfg).config = cfg := rfl
    rw [ha, hcfg]
    cases op with
    | fixed => rfl
    | «variable» => rfl
    | none =>
      simp only [FieldAttr]
      by_cases hb : (cfg.enum_impl_std_trait && (setup_context ds cfg).is_enum_type ts) = true
      · rw [if_pos hb]
        rw [Bool.and_eq_true, is_enum_type_iff hts] at hb
        exact .inl ⟨hb.1, hb.2, rfl⟩
      · rw [if_neg hb]
        rw [Bool.and_eq_true, is_enum_type_iff hts] at hb
        exact .inr ⟨hb, rfl⟩
  · rw [hts, ht]
    cases ts with
    | identifier s =>
      simp only [TypeSpecifier.isName, beq_iff_eq, Option.some.injEq, TypeSpecifier.identifier.injEq]
      by_cases he : s = name
      · simp [he]
      · simp [he]
    | _ => simp [TypeSpecifier.isName]

/-- The values are written, each as its type says. -/
inductive EachWrites (env : Env) : List Ty → List Val → List Bytes → Prop
  | nil : EachWrites env [] [] []
  | cons {t : Ty} {ts : List Ty} {v : Val} {vs : List Val} {b : Bytes} {bs : List Bytes} :
      toBytes env t v = .ok b → EachWrites env ts vs bs → EachWrites env (t :: ts) (v :: vs) (b :: bs)

/-- The values are read one after the other, with a stack for `n` levels. -/
inductive EachReads (env : Env) (n : Nat) : List Ty → Bytes → List Val → Bytes → Prop
  | nil {b : Bytes} : EachReads env n [] b [] b
  | cons {t : Ty} {ts : List Ty} {b b' rest : Bytes} {v : Val} {vs : List Val} :
      deTy env n t b = .ok (v, b') → EachReads env n ts b' vs rest →
      EachReads env n (t :: ts) b (v :: vs) rest

theorem toBytes_struct_iff {env : Env} {name : String} {fs : List (String × Ty)}
    (henv : env name = some (.struct fs)) {vs : List Val} {bs : Bytes} :
    toBytes env (.named name) (.seq vs) = .ok bs ↔
      ∃ parts, EachWrites env (fs.map (·.2)) vs parts ∧ bs = parts.flatten := by
  have key : ∀ (fs : List (String × Ty)) (vs : List Val) (bs : Bytes),
      ((∃ ss, presentEach env (fs.map (·.2)) vs = some ss ∧
        bytesFields (zipNames fs ss) = .ok bs) ↔
      ∃ parts, EachWrites env (fs.map (·.2)) vs parts ∧ bs = parts.flatten) := by
    intro fs
    induction fs with
    | nil =>
      intro vs bs
      constructor
      · rintro ⟨ss, h1, h2⟩
        cases vs with
        | nil =>
          cases h1
          cases h2
          exact ⟨[], .nil, rfl⟩
        | cons v vs => simp [presentEach] at h1
      · rintro ⟨parts, h1, h2⟩
        cases h1
        exact ⟨[], rfl, by rw [h2]; rfl⟩
    | cons f fs ih =>
      intro vs bs
      constructor
      · rintro ⟨ss, h1, h2⟩
        cases vs with
        | nil => simp [presentEach] at h1
        | cons v vs =>
          simp only [List.map_cons, presentEach] at h1
          cases hp : present env f.2 v with
          | none => simp [hp] at h1
          | some s =>
            cases hq : presentEach env (fs.map (·.2)) vs with
            | none => simp [hp, hq] at h1
            | some ss' =>
              simp only [hp, hq, Option.some.injEq] at h1
              subst h1
              change (to_bytes s).cat (bytesFields (zipNames fs ss')) = _ at h2
              obtain ⟨b1, b2, hb1, hb2, rfl⟩ := Res.cat_eq_ok h2
              obtain ⟨parts, hw, rfl⟩ := (ih vs b2).1 ⟨ss', hq, hb2⟩
              exact ⟨b1 :: parts, .cons (by simp [toBytes, hp, hb1]) hw, by simp⟩
      · rintro ⟨parts, h1, rfl⟩
        cases h1 with
        | @cons _ _ v vs b bs' hv hw =>
          obtain ⟨ss, hs1, hs2⟩ := (ih vs _).2 ⟨bs', hw, rfl⟩
          unfold toBytes at hv
          cases hp : present env f.2 v with
          | none => simp [hp] at hv
          | some s =>
            rw [hp] at hv
            refine ⟨s :: ss, by simp [presentEach, hp, hs1], ?_⟩
            change (to_bytes s).cat (bytesFields (zipNames fs ss)) = _
            have hv' : to_bytes s = .ok b := hv
            rw [hv', hs2]
            rfl
  rw [← key]
  unfold toBytes
  simp only [present, henv]
  cases hq : presentEach env (fs.map (·.2)) vs with
  | none => simp
  | some ss => simp [to_bytes_node (.struct _ _ _), nodeBytes]

theorem deTy_struct_iff {env : Env} {name : String} {fs : List (String × Ty)}
    (henv : env name = some (.struct fs)) {n : Nat} {v : Val} {b rest : Bytes} :
    deTy env (n + 1) (.named name) b = .ok (v, rest) ↔
      ∃ vs, EachReads env n (fs.map (·.2)) b vs rest ∧ v = .seq vs := by
  have key : ∀ (ts : List Ty) (b : Bytes) (vs : List Val) (rest : Bytes),
      readAll (ts.map (deTy env n)) b = .ok (vs, rest) ↔ EachReads env n ts b vs rest := by
    intro ts
    induction ts with
    | nil =>
      intro b vs rest
      constructor
      · intro h
        cases h
        exact .nil
      · intro h
        cases h
        rfl
    | cons t ts ih =>
      intro b vs rest
      simp only [List.map_cons, readAll]
      constructor
      · intro h
        obtain ⟨v, b', h1, h⟩ := M.bind_eq_ok.1 h
        obtain ⟨vs', b'', h2, h⟩ := M.bind_eq_ok.1 h
        cases h
        exact .cons h1 ((ih _ _ _).1 h2)
      · intro h
        cases h with
        | cons h1 h2 => exact M.bind_eq_ok.2 ⟨_, _, h1, M.bind_eq_ok.2 ⟨_, _, (ih _ _ _).2 h2, rfl⟩⟩
  have hd : deTy env (n + 1) (.named name) =
      (readAll ((fs.map (·.2)).map (deTy env n)) >>= fun vs => pure (.seq vs)) := by
    simp only [deTy, henv, deDef, deserialize_struct]
    rw [visitEach_eq _ _ _ _ (by simp), List.map_map]
    rfl
  rw [hd]
  constructor
  · intro h
    obtain ⟨vs, b', h1, h⟩ := M.bind_eq_ok.1 h
    cases h
    exact ⟨vs, (key _ _ _ _).1 h1, rfl⟩
  · rintro ⟨vs, h1, rfl⟩
    exact M.bind_eq_ok.2 ⟨_, _, (key _ _ _ _).2 h1, rfl⟩

theorem fieldsMeaning_ok {cs : List ConstItem} {enums : List EnumItem} {fields : List (Attr × RIdent × RTy)}
    {fs : List (String × Ty)} (h : fieldsMeaning cs enums fields = some fs) :
    List.Forall₂ (fun r f => f.1 = r.2.1.str ∧ fieldMeaning cs enums r.1 r.2.2 = some f.2) fields fs := by
  induction fields generalizing fs with
  | nil =>
    cases h
    exact .nil
  | cons r fields ih =>
    obtain ⟨a, i, t⟩ := r
    simp only [fieldsMeaning] at h
    split at h
    · split at h
      · next t' fs' h1 h2 =>
        cases h
        exact .cons ⟨rfl, h1⟩ (ih h2)
      · cases h
    · cases h

/-- C51. The struct is a Rust struct with these fields, under different names; it is written as the
members one after the other, and read so. -/
theorem C51_encoding {ds : List Definition} {cfg : Config} {n : Nat} {file : RustFile}
    {defs : List (String × Def)} (hg : gen_code n ds cfg = .ok file) (hd : file.defs = some defs)
    {name : Str} {ms : List Declaration} (hm : .type (.struct name ms) ∈ ds) :
    ∃ ty fs, upper_camel_case_ident name = .ok ty ∧ Xdr.program defs ty.str = some (.struct fs) ∧
      List.Forall₂ (fun (d : Declaration) f => ∃ nm field, d.name = some nm ∧ f.1 = String.ofList field ∧
        FieldName nm field) ms fs ∧
      (fs.map (·.1)).Nodup ∧
      (∀ vs bs, toBytes (Xdr.program defs) (.named ty.str) (.seq vs) = .ok bs ↔
        ∃ parts, EachWrites (Xdr.program defs) (fs.map (·.2)) vs parts ∧ bs = parts.flatten) ∧
      ∀ k v b rest, deTy (Xdr.program defs) (k + 1) (.named ty.str) b = .ok (v, rest) ↔
        ∃ vs, EachReads (Xdr.program defs) k (fs.map (·.2)) b vs rest ∧ v = .seq vs := by
  obtain ⟨s, hmem, hid, hf⟩ := C51_fields hg hm
  obtain ⟨d, hd1, hd2⟩ := defs_lookup hd hmem
  simp only [Item.meaning, StructItem.meaning] at hd1
  split at hd1
  · next hnd =>
    simp only [Option.map_eq_some_iff] at hd1
    obtain ⟨fs, hfs, rfl⟩ := hd1
    have hfm := fieldsMeaning_ok hfs
    refine ⟨s.name, fs, hid, hd2, ?_, ?_, fun vs bs => toBytes_struct_iff hd2,
      fun k v b rest => deTy_struct_iff hd2⟩
    · clear hfs hnd hd2 hmem
      generalize s.fields = fields at hf hfm
      clear hid hm
      induction hf generalizing fs with
      | nil =>
        cases hfm
        exact .nil
      | cons h _ ih =>
        cases hfm with
        | cons h1 h2 =>
          obtain ⟨nm, hn1, hn2⟩ := h.name
          exact .cons ⟨nm, _, hn1, h1.1, hn2⟩ (ih _ h2)
    · have : fs.map (·.1) = s.fields.map (·.2.1.str) := by
        clear hnd hfs hd2 hf
        generalize s.fields = fields at hfm
        induction hfm with
        | nil => rfl
        | cons h _ ih => simp [h.1, ih]
      rw [this]
      exact hnd
  · cases hd1

/-! ## C52 -/

/-- C52. The generator translates a declaration exactly as the table says, typedef names replaced through
chains of any length, with the attribute of the opaque data found at their end, if the stack is deep
enough for the chain. -/
theorem C52_expansion {ds : List Definition} {cfg : Config} (hr : cfg.remove_typedef = true)
    (d : Declaration) (ty : RTy) (op : OpaqueType) :
    DeclType ds true d ty op ↔ ∃ m : Nat, ∀ n, m ≤ n →
      convert_type_token (setup_context ds cfg) n d = .ok (some (ty, op)) := by
  constructor
  · intro h
    exact DeclType.convert (hr ▸ h)
  · rintro ⟨m, hm⟩
    have := decl_sound (hm m (Nat.le_refl m))
    rwa [hr] at this

/-- C52. No answer depends on the depth of the stack, if it is reached. -/
theorem C52_depth {ds : List Definition} {cfg : Config} {n : Nat} {d : Declaration} {ty : RTy}
    {op : OpaqueType} (h : convert_type_token (setup_context ds cfg) n d = .ok (some (ty, op))) :
    ∃ m : Nat, ∀ k, m ≤ k → convert_type_token (setup_context ds cfg) k d = .ok (some (ty, op)) :=
  DeclType.convert (decl_sound h)

/-- C52. The typedefs are gone: the source has no type aliases, and the types of the fields of structs are
made of the names of enums, structs and unions (or of names the file does not define). -/
theorem C52_removed {ds : List Definition} {cfg : Config} (hr : cfg.remove_typedef = true) {n : Nat}
    {file : RustFile} (hg : gen_code n ds cfg = .ok file) :
    (∀ i t, .alias i t ∉ file.types) ∧
    ∀ name ms, .type (.struct name ms) ∈ ds → ∃ s, .struct s ∈ file.types ∧
      upper_camel_case_ident name = .ok s.name ∧ ∀ f ∈ s.fields, ∀ i ∈ f.2.2.paths,
        ∃ used, (∀ d, typeOf ds used ≠ some (.declaration d)) ∧ upper_camel_case_ident used = .ok i := by
  constructor
  · intro i t hm
    obtain ⟨-, h, -⟩ := gen_code_ok.1 hg
    obtain ⟨nm, d, l, hd, hl, hi⟩ := types_token_mem h hm
    cases d with
    | declaration d =>
      have hcfg : (setup_context ds cfg).config = cfg := rfl
      simp only [typeToken, hcfg, hr, if_true, GR.ok.injEq] at hl
      subst hl
      cases hi
    | _ =>
      simp only [typeToken, GR.bind_eq_ok, GR.ok.injEq] at hl
      obtain ⟨e, -, rfl⟩ := hl
      simp at hi
  · intro name ms hm
    obtain ⟨s, h1, h2, h3⟩ := C51_fields hg hm
    refine ⟨s, h1, h2, fun f hf i hi => ?_⟩
    obtain ⟨d, hd, hfo⟩ := forall₂_mem_right h3 hf
    obtain ⟨ty, op, ht, -, hb⟩ := hfo.type
    rw [hr] at ht
    refine DeclType.paths ht i ?_
    rcases hb with ⟨-, he⟩ | ⟨-, he⟩ <;> rw [he] at hi <;> exact hi

/-- C52. A typedef that leads to itself is expanded without end, whatever the stack. -/
theorem C52_cycle {ds : List Definition} {cfg : Config} (hr : cfg.remove_typedef = true) {a b : Str}
    (ha : LeadsTo ds a a) (hb : b = a ∨ LeadsTo ds b a) (n : Nat) {d : Declaration}
    (hd : d.element = some (.identifier b)) :
    convert_type_token (setup_context ds cfg) n d = .depth := by
  cases n with
  | zero => rfl
  | succ n =>
    simp only [convert_type_token]
    refine element_depth hd (cycle_depth hr ha n ?_)
    rcases hb with rfl | hb
    · exact ha
    · exact hb

/-- C52. With a member that is of such a type, generation never ends well. -/
theorem C52_cycle_struct {ds : List Definition} {cfg : Config} (hr : cfg.remove_typedef = true) {a b : Str}
    (ha : LeadsTo ds a a) (hb : b = a ∨ LeadsTo ds b a) {name : Str} {ms : List Declaration}
    {d : Declaration} (hd : d.element = some (.identifier b)) (hm : .type (.struct name ms) ∈ ds)
    (hdm : d ∈ ms) (n : Nat) (file : RustFile) : gen_code n ds cfg ≠ .ok file := by
  intro hg
  obtain ⟨s, -, -, hf⟩ := C51_fields hg hm
  obtain ⟨f, -, hfo⟩ := forall₂_mem_left hf hdm
  obtain ⟨ty, op, ht, -⟩ := hfo.type
  obtain ⟨m, hm⟩ := DeclType.convert ht
  have h1 := hm m (Nat.le_refl m)
  rw [C52_cycle hr ha hb m hd] at h1
  cases h1

/-! ## Samples -/

def albumText : Str := c!"
typedef opaque raw<8>;
typedef raw key;
typedef key *ref;
typedef album next[2];
typedef loop other<>;
typedef other loop;
struct album { key Id; int type; album *more; raw parts<>; ref opt; opaque sum[4]; next two; };
"

def albumMembers : List Declaration :=
  [.variable (.identifier c!"key") c!"Id", .variable (.int true) c!"type",
   .optionVariable (.identifier c!"album") c!"more", .variableArray (.identifier c!"raw") c!"parts" none,
   .variable (.identifier c!"ref") c!"opt", .opaqueFixedArray c!"sum" (.constant (.decimal c!"4")),
   .variable (.identifier c!"next") c!"two"]

def album : List Definition :=
  [.type (.declaration (.opaqueVariableArray c!"raw" (some (.constant (.decimal c!"8"))))),
   .type (.declaration (.variable (.identifier c!"raw") c!"key")),
   .type (.declaration (.optionVariable (.identifier c!"key") c!"ref")),
   .type (.declaration (.fixedArray (.identifier c!"album") c!"next" (.constant (.decimal c!"2")))),
   .type (.declaration (.variableArray (.identifier c!"loop") c!"other" none)),
   .type (.declaration (.variable (.identifier c!"other") c!"loop")),
   .type (.struct c!"album" albumMembers)]

theorem parse_album : parse albumText = .ok album := by
  set_option maxRecDepth 100000 in rfl

/-- Names, types, attributes and the `Box` of the sample. -/
example : ∃ file s, gen_code 4 album (Flags.config {}) = .ok file ∧ .struct s ∈ file.types ∧
    s.name = ⟨false, c!"Album"⟩ ∧
    s.fields = [(.variable, ⟨false, c!"id"⟩, .vec .u8), (.none, ⟨true, c!"type"⟩, .i32),
      (.none, ⟨false, c!"more"⟩, .box (.option (.path ⟨false, c!"Album"⟩))),
      (.none, ⟨false, c!"parts"⟩, .vec .variableArray),
      (.variable, ⟨false, c!"opt"⟩, .option (.vec .u8)),
      (.fixed, ⟨false, c!"sum"⟩, .array .u8 (.lit .usize 4) true),
      (.none, ⟨false, c!"two"⟩, .array (.path ⟨false, c!"Album"⟩) (.lit .usize 2) false)] :=
  ⟨_, _, rfl, List.mem_cons_self, rfl, rfl⟩

example : ∃ file s, gen_code 4 album (Flags.config {}) = .ok file ∧ .struct s ∈ file.types ∧
    List.Forall₂ (FieldOf album (Flags.config {}) c!"album") albumMembers s.fields ∧
    ∀ f ∈ s.fields, ∀ i ∈ f.2.2.paths, ∃ used, (∀ d, typeOf album used ≠ some (.declaration d)) ∧
      upper_camel_case_ident used = .ok i := by
  have hg : ∃ file, gen_code 4 album (Flags.config {}) = .ok file := ⟨_, rfl⟩
  obtain ⟨file, hg⟩ := hg
  have hm : Definition.type (.struct c!"album" albumMembers) ∈ album := by simp [album]
  obtain ⟨s, h1, h2, h3⟩ := C51_fields hg hm
  refine ⟨file, s, hg, h1, h3, fun f hf i hi => ?_⟩
  obtain ⟨d, -, hfo⟩ := forall₂_mem_right h3 hf
  obtain ⟨ty, op, ht, -, hb⟩ := hfo.type
  refine DeclType.paths ht i ?_
  rcases hb with ⟨-, he⟩ | ⟨-, he⟩ <;> rw [he] at hi <;> exact hi

/-- Chains in the sample. -/
example : DeclType album true (.variable (.identifier c!"ref") c!"x") (.option (.vec .u8)) .variable :=
  .variable (.typedef (d := .optionVariable (.identifier c!"key") c!"ref") rfl rfl
    (.option (.typedef (d := .variable (.identifier c!"raw") c!"key") rfl rfl
      (.variable (.typedef (d := .opaqueVariableArray c!"raw" _) rfl rfl .opaqueVar)))))

/-- A loop in the sample, which nothing uses; with a member of it no stack is deep enough. -/
example : LeadsTo album c!"loop" c!"loop" :=
  .more (d := .variable (.identifier c!"other") c!"loop") rfl rfl
    (.step (d := .variableArray (.identifier c!"loop") c!"other" none) rfl rfl)

example (n : Nat) (file : RustFile) : gen_code n
    [.type (.declaration (.variable (.identifier c!"b") c!"a")),
     .type (.declaration (.variable (.identifier c!"a") c!"b")),
     .type (.struct c!"s" [.fixedArray (.identifier c!"b") c!"x" (.constant (.decimal c!"2"))])]
    (Flags.config {}) ≠ .ok file := by
  refine C52_cycle_struct (a := c!"a") (b := c!"b") rfl ?_ (.inr ?_) (d := .fixedArray _ _ _) rfl
    (List.mem_cons_of_mem _ (List.mem_cons_of_mem _ List.mem_cons_self)) List.mem_cons_self n file
  · exact .more (d := .variable (.identifier c!"b") c!"a") rfl rfl
      (.step (d := .variable (.identifier c!"a") c!"b") rfl rfl)
  · exact .step (d := .variable (.identifier c!"a") c!"b") rfl rfl

/-- The struct of the catalogue on the wire. -/
example : ∃ file defs fs, gen_code 9 catalogue (Flags.config {}) = .ok file ∧ file.defs = some defs ∧
    Xdr.program defs "Entry" = some (.struct fs) ∧
    fs.length = 8 ∧
    ∀ k v b rest, deTy (Xdr.program defs) (k + 1) (.named "Entry") b = .ok (v, rest) ↔
      ∃ vs, EachReads (Xdr.program defs) k (fs.map (·.2)) b vs rest ∧ v = .seq vs := by
  obtain ⟨file, defs, hg, hd⟩ := accepted_ok (n := 9) (ds := catalogue) (cfg := Flags.config {})
    (by decide +kernel)
  obtain ⟨ty, fs, h1, h2, h3, -, -, h5⟩ := C51_encoding hg hd (name := c!"entry") (ms := catalogueEntry)
    (by simp [catalogue])
  cases h1
  exact ⟨file, defs, fs, hg, hd, h2, h3.length_eq.symm, h5⟩

end Xdr.Rpcgen
