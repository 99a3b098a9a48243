import Verif.Proofs.DeriveCode
/-!
# C62 from the tokens: what rustc makes of what the derive macros return

`C62_indexer_expands` and the others of `Props/Derive.lean` start from macros that return match arms. Here the macros
return tokens, and rustc's side (`Spec/RustCode.lean`) reads two impls, their methods, statements and arms out of them.
-/

namespace Xdr.Derive

open Rpcgen (Str Token RIdent Delim kw commaSep)
open RustCode

/-- The fields of a variant mean those types. -/
def FieldsMean (meaning : List Token → Option Ty) : FieldTokens → Option (List Ty) → Prop
  | .unit, none => True
  | .unnamed tts, some ts => List.Forall₂ (fun t ty => meaning t = some ty) tts ts
  | _, _ => False

/-- The enum `E` is what rustc has for the tokens `e`; `meaning` is what it has for a type. -/
structure Understood (meaning : List Token → Option Ty) (e : EnumTokens) (E : EnumType) : Prop where
  name : E.name = e.ident
  /-- the name is no keyword -/
  usable : e.ident ∉ notPath
  variants : List.Forall₂ (fun v x => v.ident = x.1 ∧ FieldsMean meaning v.fields x.2) e.variants E.variants
  /-- variants have different names -/
  distinct : (E.variants.map fun v => v.1.str).Nodup
  types : ∀ v ∈ e.variants, ∀ tts, v.fields = .unnamed tts → ∀ t ∈ tts, IsType t

/-- The names and the fields of the variants. -/
def _root_.Xdr.RustCode.EnumType.shapes (E : EnumType) : List (String × Option (List Ty)) :=
  E.variants.map fun v => (v.1.str, v.2)

theorem Understood.vars {meaning : List Token → Option Ty} {e : EnumTokens} {E : EnumType} (h : Understood meaning e E) :
    ∃ vts, e.variants = variantTokensOf vts ∧ List.Forall₂ (VarMeans meaning) vts E.variants := by
  have := h.variants
  generalize e.variants = vs at this
  generalize E.variants = xs at this
  induction this with
  | nil => exact ⟨[], rfl, .nil⟩
  | @cons v x vs xs h1 _ ih =>
    obtain ⟨vts, rfl, hm⟩ := ih
    obtain ⟨n, f⟩ := v
    obtain ⟨n', o⟩ := x
    obtain ⟨rfl, h1⟩ := h1
    cases f with
    | named => cases o <;> exact absurd h1 id
    | unnamed tts =>
      cases o with
      | none => exact absurd h1 id
      | some ts => exact ⟨(n, some tts) :: vts, rfl, .cons ⟨rfl, .some h1⟩ hm⟩
    | unit =>
      cases o with
      | none => exact ⟨(n, none) :: vts, rfl, .cons ⟨rfl, .none⟩ hm⟩
      | some ts => exact absurd h1 id

theorem Understood.isType {meaning : List Token → Option Ty} {e : EnumTokens} {E : EnumType} (h : Understood meaning e E)
    {vts : List (Var (List Token))} (hv : e.variants = variantTokensOf vts) :
    ∀ v ∈ vts, ∀ ts, v.2 = some ts → ∀ t ∈ ts, IsType t := by
  intro v hin ts hts
  refine h.types ⟨v.1, fieldTokensOf v.2⟩ ?_ ts (by rw [hts]; rfl)
  rw [hv]
  exact List.mem_map.2 ⟨v, hin, rfl⟩

theorem Understood.nodup {meaning : List Token → Option Ty} {e : EnumTokens} {E : EnumType} (h : Understood meaning e E) :
    (E.variants.map (·.1)).Nodup := by
  have := h.distinct
  rw [show (fun v : RIdent × Option (List Ty) => v.1.str) = RIdent.str ∘ (·.1) from rfl, ← List.map_map] at this
  exact List.Pairwise.of_map _ (fun _ _ h he => h (congrArg _ he)) this

/-- C62. `#[derive(XdrIndexer)]` returns tokens exactly for an enum without named fields. -/
theorem C62_indexer_tokens (i : InputTokens) :
    (∃ ts, xdr_indexer_tokens i = .ok ts) ↔ ∃ e, i = .enum e ∧ ∀ v ∈ e.variants, v.fields ≠ .named := by
  constructor
  · rintro ⟨ts, h⟩
    cases i with
    | other => cases h
    | enum e =>
      refine ⟨e, rfl, fun v hv hf => ?_⟩
      simp only [xdr_indexer_tokens, indexerArms_named hv hf] at h
      cases h
  · rintro ⟨⟨n, vs⟩, rfl, ht⟩
    obtain ⟨vars, rfl⟩ := variantTokensOf_of ht
    exact ⟨_, xdr_indexer_tokens_eq _ _⟩

/-- C62. `#[derive(XdrUnion)]` moreover needs a variant with a field. -/
theorem C62_union_tokens (i : InputTokens) :
    (∃ ts, xdr_union_tokens i = .ok ts) ↔ ∃ e, i = .enum e ∧ (∀ v ∈ e.variants, v.fields ≠ .named) ∧
      ∃ v ∈ e.variants, ∃ t ts, v.fields = .unnamed (t :: ts) := by
  constructor
  · rintro ⟨ts, h⟩
    cases i with
    | other => cases h
    | enum e =>
      obtain ⟨n, vs⟩ := e
      have ht : ∀ v ∈ vs, v.fields ≠ .named := fun v hv hf => by
        simp only [xdr_union_tokens, unionArms_named hv hf] at h
        cases h
      refine ⟨_, rfl, ht, ?_⟩
      obtain ⟨vars, rfl⟩ := variantTokensOf_of ht
      simp only [xdr_union_tokens, unionArms_eq, Option.none_or] at h
      cases hv : valueTokens vars with
      | none => rw [hv] at h; cases h
      | some t =>
        obtain ⟨v, hv, hb⟩ := List.exists_of_findSome?_eq_some hv
        obtain ⟨m, o⟩ := v
        refine ⟨⟨m, fieldTokensOf o⟩, List.mem_map.2 ⟨_, hv, rfl⟩, ?_⟩
        cases o with
        | none => simp at hb
        | some ts =>
          cases ts with
          | nil => simp at hb
          | cons t ts => exact ⟨t, ts, rfl⟩
  · rintro ⟨⟨n, vs⟩, rfl, ht, v, hv, t, ts, hf⟩
    obtain ⟨vars, rfl⟩ := variantTokensOf_of ht
    obtain ⟨x, hx, rfl⟩ := List.mem_map.1 hv
    have hs : (valueTokens vars).isSome := by
      rw [valueTokens, List.findSome?_isSome_iff]
      refine ⟨x, hx, ?_⟩
      obtain ⟨m, o⟩ := x
      cases o with
      | none => simp [fieldTokensOf] at hf
      | some us => simp only [fieldTokensOf, FieldTokens.unnamed.injEq] at hf; subst hf; rfl
    obtain ⟨ty, hty⟩ := Option.isSome_iff_exists.1 hs
    exact ⟨_, xdr_union_tokens_eq _ hty⟩

/-- C62. The tokens of `#[derive(XdrIndexer)]` on an enum with variants are an impl of `Serialize` and one of
`Deserialize`. `serialize` makes the calls the user's `index` and the fields say; `visit_seq` reads what
`name_by_index` and the fields say. -/
theorem C62_indexer_code (meaning : List Token → Option Ty) (e : EnumTokens) (E : EnumType)
    (h : Understood meaning e E) (hi : meaning [kw c!"i32"] = some .i32) (hne : e.variants ≠ []) :
    ∃ ts impls, xdr_indexer_tokens (.enum e) = .ok ts ∧ readImpls e.ident ts = some impls ∧ impls.length = 10 ∧
      (∀ (env : Env) (impl : IndexerImpl), env E.name.str = some (.indexer E.shapes impl) →
        ∀ i vs s, present env (.named E.name.str) (.variant i vs) = some s →
          runSerialize env E (some (impl.index i vs)) i vs impls.serialize = some s) ∧
      (∀ (field : Ty → De Val) (impl : IndexerImpl), field .i32 = deserialize_i32 (fun i => pure (.i32 i)) →
        deserialize_tuple impls.length (runVisit meaning field E ⟨some impl.name_by_index, none⟩ impls.visit) =
          deDef field E.name.str (.indexer E.shapes impl)) := by
  obtain ⟨name, vs⟩ := e
  obtain ⟨vts, hv, hm⟩ := h.vars
  simp only at hv
  subst hv
  have hvt : vts ≠ [] := by rintro rfl; exact hne rfl
  have hname := h.name
  have hu := h.usable
  simp only at hname hu
  subst hname
  refine ⟨_, _, xdr_indexer_tokens_eq _ _, readImpls_eq _ _ (.inl rfl) _ _, rfl, ?_, ?_⟩
  · intro env impl henv i vs s hp
    have ha := readArms_ser hu hvt
    rw [serRead_means hm] at ha
    rw [present] at hp
    simp only [henv, EnumType.shapes, List.getElem?_map] at hp
    unfold runSerialize
    cases hi : E.variants[i]? with
    | none => simp [hi] at hp
    | some v =>
      obtain ⟨n, o⟩ := v
      have hf : ∃ ss, presentFields env o vs = some ss ∧
          s = .ofUser (impl.index i vs) fun idx => .tuple (i32AsUsize idx) (.i32 idx :: ss) := by
        simp only [hi, Option.map_some] at hp
        cases o with
        | none =>
          simp only at hp
          split at hp
          · next he => cases hp; exact ⟨[], by simp [presentFields, he], rfl⟩
          · cases hp
        | some ts =>
          simp only [Option.map_eq_some_iff] at hp
          obtain ⟨ss, h1, rfl⟩ := hp
          exact ⟨ss, h1, rfl⟩
      obtain ⟨ss, hf, rfl⟩ := hf
      rw [readBlock_indexerSer]
      simp only
      cases hix : impl.index i vs with
      | err x => rfl
      | panic p => rfl
      | depth => rfl
      | ok idx =>
        have hr := runMatch_eq h.nodup hi hf ha (k := i32AsUsize idx) (es := [.i32 idx])
          (base := [(w c!"ser", .tuple), (w c!"index", .i32 idx), (w c!"self", .self), (w c!"serializer", .serializer)]) rfl
        simp [runStmts, runBind, find, usizeOf, runElement, elementOf, w, SVal.ofUser] at hr ⊢
        rw [hr]
        simp
  · intro field impl hi32
    have ha := readArms_de hu hvt (indexerShape_types (h.isType rfl)) fun v _ => indexerShape_path
    simp only [deDef]
    congr 1
    funext seq
    unfold runVisit
    rw [readBlock_indexerDe]
    simp only [and_self, if_true, elementType, nextExpr, Option.bind_some, hi, hi32]
    unfold deserialize_i32
    rw [next_element_map, visitIndexer]
    unfold deserialize_i32
    simp only [M.bind_pure']
    congr 1
    funext p
    obtain ⟨o, seq'⟩ := p
    cases o with
    | none => rfl
    | some idx =>
      have hc : userCall ⟨some impl.name_by_index, none⟩ [(w c!"index", .val (.i32 idx))] (w c!"name_by_index")
        (.path false [w c!"index"]) = some (impl.name_by_index idx) := rfl
      have hx : formatText [(w c!"index", .val (.i32 idx))] [.lit c!"\"Can not convert from {}\"", .op c!",",
        kw c!"index"] = some s!"Can not convert from {idx.toInt}" := rfl
      simp only [Option.map_some, hc, hx]
      cases impl.name_by_index idx with
      | err x => rfl
      | panic x => rfl
      | depth => rfl
      | ok s => exact readMatch_indexer hm h.nodup ha s seq' _

/-- C62. The tokens of `#[derive(XdrUnion)]` on an enum with a field are two impls as well; the discriminant is read as
the type of the first field, and goes to the user's `name_by_value`. -/
theorem C62_union_code (meaning : List Token → Option Ty) (e : EnumTokens) (E : EnumType)
    (h : Understood meaning e E) (disc : Ty) (hd : E.variants.findSome? (fun v => v.2.bind List.head?) = some disc) :
    ∃ ts impls, xdr_union_tokens (.enum e) = .ok ts ∧ readImpls e.ident ts = some impls ∧ impls.length = 10 ∧
      (∀ (env : Env) (impl : UnionImpl), env E.name.str = some (.union disc E.shapes impl) →
        ∀ i vs s, present env (.named E.name.str) (.variant i vs) = some s →
          runSerialize env E none i vs impls.serialize = some s) ∧
      (∀ (field : Ty → De Val) (impl : UnionImpl),
        deserialize_tuple impls.length (runVisit meaning field E ⟨none, some impl.name_by_value⟩ impls.visit) =
          deDef field E.name.str (.union disc E.shapes impl)) := by
  obtain ⟨name, vs⟩ := e
  obtain ⟨vts, hv, hm⟩ := h.vars
  simp only at hv
  subst hv
  obtain ⟨ty, hty, hmean⟩ := valueTokens_means hm hd
  have hvt : vts ≠ [] := by rintro rfl; simp [valueTokens] at hty
  have hname := h.name
  have hu := h.usable
  simp only at hname hu
  subst hname
  refine ⟨_, _, xdr_union_tokens_eq _ hty, readImpls_eq _ _ (.inr rfl) _ _, rfl, ?_, ?_⟩
  · intro env impl henv i vs s hp
    have ha := readArms_ser hu hvt
    rw [serRead_means hm] at ha
    rw [present] at hp
    simp only [henv, EnumType.shapes, List.getElem?_map] at hp
    unfold runSerialize
    cases hi : E.variants[i]? with
    | none => simp [hi] at hp
    | some v =>
      obtain ⟨n, o⟩ := v
      have hf : ∃ ss, presentFields env o vs = some ss ∧ s = .tuple 2 ss := by
        simp only [hi, Option.map_some] at hp
        cases o with
        | none =>
          simp only at hp
          split at hp
          · next he => cases hp; exact ⟨[], by simp [presentFields, he], rfl⟩
          · cases hp
        | some ts =>
          simp only [Option.map_eq_some_iff] at hp
          obtain ⟨ss, h1, rfl⟩ := hp
          exact ⟨ss, h1, rfl⟩
      obtain ⟨ss, hf, rfl⟩ := hf
      rw [readBlock_unionSer]
      simp only
      have hr := runMatch_eq h.nodup hi hf ha (k := 2) (es := [])
        (base := [(w c!"ser", .tuple), (w c!"self", .self), (w c!"serializer", .serializer)]) rfl
      have h2 : natOf c!"2usize" = some 2 := rfl
      simp [runStmts, runBind, find, usizeOf, w, h2] at hr ⊢
      rw [hr]
      simp
  · intro field impl
    have ha := readArms_de hu hvt (unionShape_types (h.isType rfl)) fun v _ => unionShape_path
    simp only [deDef]
    congr 1
    funext seq
    unfold runVisit
    rw [readBlock_unionDe (valueTokens_type (h.isType rfl) hty)]
    simp only [and_self, if_true, elementType, nextExpr, Option.bind_some, hmean]
    rw [visitUnion]
    congr 1
    funext p
    obtain ⟨o, seq'⟩ := p
    cases o with
    | none => rfl
    | some value =>
      have hc : userCall ⟨none, some impl.name_by_value⟩ [(w c!"value", .val value)] (w c!"name_by_value")
        (.ref (.path false [w c!"value"])) = some (impl.name_by_value value) := rfl
      have hx : formatText [(w c!"value", .val value)] [.lit c!"\"Can not convert from {:?}\"", .op c!",",
        .op c!"&", kw c!"value"] = some "Can not convert from value" := rfl
      simp only [hc, hx]
      cases impl.name_by_value value with
      | err x => rfl
      | panic x => rfl
      | depth => rfl
      | ok s => exact readMatch_union hm h.nodup ha s seq' _ rfl

/-- C62. On an enum without variants `#[derive(XdrIndexer)]` returns tokens, but rustc can not read the `match` in
them: there is no arm before its first comma. -/
theorem C62_indexer_empty (name : RIdent) : ∃ ts impls, xdr_indexer_tokens (.enum ⟨name, []⟩) = .ok ts ∧
    readImpls name ts = some impls ∧ ¬ readable impls.serialize ∧ ¬ readable impls.visit := by
  refine ⟨_, _, xdr_indexer_tokens_eq name [], readImpls_eq _ _ (.inl rfl) _ _, ?_, ?_⟩
  · rintro ⟨b, hb, h, -⟩
    rw [readBlock_indexerSer] at hb
    cases hb
    obtain ⟨as, ha⟩ := h _ _ (List.mem_cons_of_mem _ (List.mem_cons_of_mem _ (List.mem_cons_of_mem _ (List.mem_cons_self))))
    cases ha
  · rintro ⟨b, hb, -, h⟩
    rw [readBlock_indexerDe] at hb
    cases hb
    obtain ⟨as, ha⟩ := h _ _ rfl
    cases ha

/-! ## An enum that meets the hypotheses -/

/-- `i32` and `Vec<u32>`. -/
def sampleMeaning : List Token → Option Ty
  | [.ident i] => if i = w c!"i32" then some .i32 else none
  | [.ident v, .op a, .ident i, .op b] =>
    if v = w c!"Vec" ∧ a = c!"<" ∧ i = w c!"u32" ∧ b = c!">" then some (.vec .u32) else none
  | _ => none

/-- `enum Sample { A, B(i32), C(i32, Vec<u32>), r#type() }` -/
def sampleTokens : EnumTokens := ⟨w c!"Sample", [⟨w c!"A", .unit⟩, ⟨w c!"B", .unnamed [[kw c!"i32"]]⟩,
  ⟨w c!"C", .unnamed [[kw c!"i32"], [kw c!"Vec", .op c!"<", kw c!"u32", .op c!">"]]⟩, ⟨⟨true, c!"type"⟩, .unnamed []⟩]⟩

def sampleType : EnumType := ⟨w c!"Sample", [(w c!"A", none), (w c!"B", some [.i32]), (w c!"C", some [.i32, .vec .u32]),
  (⟨true, c!"type"⟩, some [])]⟩

theorem sample_understood : Understood sampleMeaning sampleTokens sampleType where
  name := rfl
  usable := by decide
  variants := by
    refine .cons ⟨rfl, trivial⟩ (.cons ⟨rfl, .cons ?_ .nil⟩ (.cons ⟨rfl, .cons ?_ (.cons ?_ .nil)⟩ (.cons ⟨rfl, .nil⟩ .nil)))
      <;> simp [sampleMeaning, kw, w]
  distinct := by decide
  types := by
    intro v hv tts hf t ht
    simp only [sampleTokens, List.mem_cons, List.not_mem_nil, or_false] at hv
    rcases hv with rfl | rfl | rfl | rfl <;> simp only [reduceCtorEq, FieldTokens.unnamed.injEq] at hf <;> subst hf <;>
      simp only [List.mem_cons, List.not_mem_nil, or_false] at ht
    · subst ht; exact ⟨by simp [kw], rfl⟩
    · rcases ht with rfl | rfl <;> exact ⟨by simp [kw], rfl⟩

example : ∃ ts impls, xdr_indexer_tokens (.enum sampleTokens) = .ok ts ∧ readImpls (w c!"Sample") ts = some impls ∧
    impls.length = 10 :=
  let ⟨ts, impls, h1, h2, h3, _⟩ := C62_indexer_code _ _ _ sample_understood (by simp [sampleMeaning, kw, w]) (by simp [sampleTokens])
  ⟨ts, impls, h1, h2, h3⟩

/-- The discriminant is the first field of `B`. -/
example : ∃ ts impls, xdr_union_tokens (.enum sampleTokens) = .ok ts ∧ readImpls (w c!"Sample") ts = some impls ∧
    ∀ field impl, deserialize_tuple impls.length
        (runVisit sampleMeaning field sampleType ⟨none, some impl.name_by_value⟩ impls.visit) =
      deDef field "Sample" (.union .i32 [("A", none), ("B", some [.i32]), ("C", some [.i32, .vec .u32]),
        ("r#type", some [])] impl) :=
  let ⟨ts, impls, h1, h2, _, _, h5⟩ := C62_union_code _ _ _ sample_understood .i32 rfl
  ⟨ts, impls, h1, h2, h5⟩

/-- The text of what the macro returns for `C`. -/
example : String.ofList (Rpcgen.tokensText (deTok (w c!"Sample") (w c!"C")
    (unionShape (w c!"C", some [[kw c!"i32"], [kw c!"u32"]])))) =
  "stringify ! (C) => { let r1 = seq . next_element :: < u32 > () ? . unwrap () ; Ok (Sample :: C (value , r1)) }" := by
  decide +kernel

/-- A struct, and named fields. -/
example : xdr_indexer_tokens .other = .panic .unwrapErr := rfl
example : xdr_union_tokens (.enum ⟨w c!"E", [⟨w c!"A", .unit⟩, ⟨w c!"B", .named⟩]⟩) = .panic .unimplemented := rfl

end Xdr.Derive
