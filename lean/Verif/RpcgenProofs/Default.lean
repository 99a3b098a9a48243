import Verif.Rpcgen.Default
import Verif.RpcgenProofs.EndToEndRep
/-!
# Default values are values of their types, and are read back when written
-/

namespace Xdr.Rpcgen

open Rfc (XVal)

theorem resBind_ok {α β : Type} {x : Res α} {f : α → Res β} {b : β} :
    x.bind f = .ok b ↔ ∃ a, x = .ok a ∧ f a = .ok b := by
  cases x <;> simp [Res.bind]

theorem resMapM_ok {α β : Type} {f : α → Res β} {l : List α} {r : List β} :
    resMapM f l = .ok r ↔ List.Forall₂ (fun a b => f a = .ok b) l r := by
  induction l generalizing r with
  | nil =>
    simp only [resMapM, Res.ok.injEq, List.forall₂_nil_left_iff]
    exact eq_comm
  | cons a l ih =>
    simp only [resMapM, resBind_ok, Res.ok.injEq, ih]
    constructor
    · rintro ⟨b, hb, bs, hbs, rfl⟩
      exact .cons hb hbs
    · intro h
      cases h with
      | cons hb hbs => exact ⟨_, hb, _, hbs, rfl⟩

/-- `v` is a value of type `t`; and, if `C` holds, it is written and read back. -/
structure GoodVal (C : Prop) (env : Env) (t : Ty) (v : Val) : Prop where
  hasTy : HasTy env t v
  back : C → Fits env t v ∧ ∃ y bs, toXdr env t v = some y ∧ Rfc.encode y = some bs

/-- The same for several. -/
structure GoodEach (C : Prop) (env : Env) (ts : List Ty) (vs : List Val) : Prop where
  hasTy : (presentEach env ts vs).isSome
  back : C → FitsEach env ts vs ∧ ∃ ys bs, toXdrEach env ts vs = some ys ∧ Rfc.encodeAll ys = some bs

theorem GoodEach.nil {C : Prop} {env : Env} : GoodEach C env [] [] :=
  ⟨by simp [presentEach], fun _ => ⟨by simp [FitsEach], [], [], by simp [toXdrEach], by simp [Rfc.encodeAll]⟩⟩

theorem GoodEach.cons {C : Prop} {env : Env} {t : Ty} {ts : List Ty} {v : Val} {vs : List Val}
    (h : GoodVal C env t v) (hs : GoodEach C env ts vs) : GoodEach C env (t :: ts) (v :: vs) := by
  obtain ⟨h1, h2⟩ := h
  obtain ⟨h3, h4⟩ := hs
  unfold HasTy at h1
  obtain ⟨s, hs⟩ := Option.isSome_iff_exists.1 h1
  obtain ⟨ss, hss⟩ := Option.isSome_iff_exists.1 h3
  refine ⟨by simp [presentEach, hs, hss], fun c => ?_⟩
  obtain ⟨f, y, b, hy, hb⟩ := h2 c
  obtain ⟨fs, ys, bs, hys, hbs⟩ := h4 c
  exact ⟨by simp only [FitsEach]; exact ⟨f, fs⟩, y :: ys, b ++ bs, by simp [toXdrEach, hy, hys],
    by simp [Rfc.encodeAll, hb, hbs, Rfc.cat]⟩

theorem GoodEach.of {C : Prop} {env : Env} {ts : List Ty} {vs : List Val}
    (h : List.Forall₂ (GoodVal C env) ts vs) : GoodEach C env ts vs := by
  induction h with
  | nil => exact .nil
  | cons h _ ih => exact .cons h ih

theorem good_replicate {C : Prop} {env : Env} {t : Ty} {v : Val} (h : GoodVal C env t v) (n : Nat) :
    (presentAll env t (List.replicate n v)).isSome ∧
    (C → FitsAll env t (List.replicate n v) ∧
      ∃ ys bs, toXdrAll env t (List.replicate n v) = some ys ∧ Rfc.encodeAll ys = some bs) := by
  induction n with
  | zero => exact ⟨by simp [presentAll], fun _ => ⟨by simp [FitsAll], [], [], by simp [toXdrAll], by simp [Rfc.encodeAll]⟩⟩
  | succ n ih =>
    obtain ⟨h1, h2⟩ := h
    obtain ⟨h3, h4⟩ := ih
    unfold HasTy at h1
    obtain ⟨s, hs⟩ := Option.isSome_iff_exists.1 h1
    obtain ⟨ss, hss⟩ := Option.isSome_iff_exists.1 h3
    refine ⟨by simp [List.replicate_succ, presentAll, hs, hss], fun c => ?_⟩
    obtain ⟨f, y, b, hy, hb⟩ := h2 c
    obtain ⟨fs, ys, bs, hys, hbs⟩ := h4 c
    refine ⟨?_, y :: ys, b ++ bs, by simp [List.replicate_succ, toXdrAll, hy, hys],
      by simp [Rfc.encodeAll, hb, hbs, Rfc.cat]⟩
    rw [List.replicate_succ]
    simp only [FitsAll]
    exact ⟨f, fs⟩

theorem good_array {C : Prop} {env : Env} {t : Ty} {v : Val} (h : GoodVal C env t v) (n : Nat) :
    GoodVal C env (.array n t) (.seq (List.replicate n v)) := by
  obtain ⟨h1, h2⟩ := good_replicate h n
  refine ⟨by simpa [HasTy, present] using h1, fun c => ?_⟩
  obtain ⟨f, ys, bs, hys, hbs⟩ := h2 c
  exact ⟨by simpa [Fits] using f, .arrayFixed ys, bs, by simp [toXdr, hys], by simpa [Rfc.encode] using hbs⟩

theorem good_array_nil {C : Prop} {env : Env} {t : Ty} : GoodVal C env (.array 0 t) (.seq []) :=
  ⟨by simp [HasTy, present, presentAll], fun _ => ⟨by simp [Fits, FitsAll], .arrayFixed [], [],
    by simp [toXdr, toXdrAll], by simp [Rfc.encode, Rfc.encodeAll]⟩⟩

theorem good_opaqueFixed {C : Prop} {env : Env} (n : Nat) :
    GoodVal C env (.opaqueFixed n) (.bytes (List.replicate n 0)) :=
  ⟨by simp [HasTy, present], fun _ => ⟨by simp [Fits], .opaqueFixed (List.replicate n 0), _, by simp [toXdr],
    by simp only [Rfc.encode]; rfl⟩⟩

theorem good_opaqueVar {C : Prop} {env : Env} : GoodVal C env .opaqueVar (.bytes []) :=
  ⟨by simp [HasTy, present], fun _ => ⟨by simp [Fits], .opaqueVar [], [0, 0, 0, 0], by simp [toXdr],
    by decide +kernel⟩⟩

theorem good_struct {C : Prop} {env : Env} {name : String} {fs : List (String × Ty)}
    (henv : env name = some (.struct fs)) {vs : List Val} (h : GoodEach C env (fs.map (·.2)) vs) :
    GoodVal C env (.named name) (.seq vs) := by
  obtain ⟨h1, h2⟩ := h
  refine ⟨by simpa [HasTy, present, henv] using h1, fun c => ?_⟩
  obtain ⟨f, ys, bs, hys, hbs⟩ := h2 c
  exact ⟨by simpa [Fits, henv] using f, .struct ys, bs, by simp [toXdr, henv, hys],
    by simpa [Rfc.encode] using hbs⟩

/-- The environment has serde-xdr's own `VariableArray`. -/
theorem good_variableArray {C : Prop} {env : Env} (henv : env variableArrayName = some variableArrayDef) :
    GoodVal C env (.named variableArrayName) (.seq [.bytes []]) :=
  good_struct henv (.cons good_opaqueVar .nil)

theorem encodes {env : Env} {t : Ty} {v : Val} {y : XVal} (h : toXdr env t v = some y)
    (hb : (Rfc.encode y).isSome) : ∃ y bs, toXdr env t v = some y ∧ Rfc.encode y = some bs := by
  obtain ⟨bs, hb⟩ := Option.isSome_iff_exists.1 hb
  exact ⟨y, bs, h, hb⟩

/-- What evaluating a default may end in: a good value, or an overflow of the stack. -/
def GoodRes (C : Prop) (env : Env) (t : Ty) : Res Val → Prop
  | .ok v => GoodVal C env t v
  | .depth => True
  | _ => False

theorem GoodRes.bind {C : Prop} {env : Env} {t t' : Ty} {r : Res Val} {f : Val → Val}
    (h : GoodRes C env t r) (hf : ∀ v, GoodVal C env t v → GoodVal C env t' (f v)) :
    GoodRes C env t' (r.bind fun v => .ok (f v)) := by
  cases r with
  | ok v => exact hf v h
  | err e => exact h
  | panic p => exact h
  | depth => trivial

/-- Types without attribute. -/
theorem good_default {C : Prop} {env : Env} (henv : env variableArrayName = some variableArrayDef)
    {cs : List ConstItem} {item : RIdent → Res Val} {t : RTy}
    (hp : ∀ i ∈ t.paths, GoodRes C env (.named i.str) (item i)) {ty : Ty}
    (ht : t.meaning cs = some ty) : GoodRes C env ty (t.defaultWith cs item) := by
  induction t generalizing ty with
  | i8 | i16 | i32 | i64 | u8 | u16 | u32 | u64 | f32 | f64 | bool | string =>
    cases ht
    refine ⟨by simp [HasTy, present], fun _ => ⟨by simp [Fits, utf8Bytes], ?_⟩⟩
    refine encodes (by simp only [toXdr]; rfl) ?_
    decide +kernel
  | path i =>
    cases ht
    exact hp i (by simp [RTy.paths])
  | array t len cast ih =>
    simp only [RTy.meaning, Option.bind_eq_some_iff, arrayTy] at ht
    obtain ⟨t', ht', hl⟩ := ht
    unfold RTy.defaultWith
    split at hl
    · next n hn =>
      split at hl
      · cases hl
        rw [hn]
        cases n with
        | zero => exact good_array_nil
        | succ n => exact (ih hp ht').bind fun v hv => good_array hv _
      · cases hl
    · cases hl
  | vec t ih =>
    simp only [RTy.meaning, Option.map_eq_some_iff] at ht
    obtain ⟨t', -, rfl⟩ := ht
    exact ⟨by simp [HasTy, present, presentAll], fun _ => ⟨by simp [Fits, FitsAll], .arrayVar [], [0, 0, 0, 0],
      by simp [toXdr, toXdrAll], by decide +kernel⟩⟩
  | option t ih =>
    simp only [RTy.meaning, Option.map_eq_some_iff] at ht
    obtain ⟨t', -, rfl⟩ := ht
    exact ⟨by simp [HasTy, present], fun _ => ⟨by simp [Fits], .optNone, [0, 0, 0, 0], by simp [toXdr],
      by decide +kernel⟩⟩
  | box t ih => exact ih hp ht
  | variableArray =>
    cases ht
    exact good_variableArray henv

/-- What `item` does for the types of the file. -/
structure GoodItems (C : Prop) (env : Env) (enums : List EnumItem) (types : List Item)
    (item : RIdent → Res Val) : Prop where
  named : ∀ i ∈ types, GoodRes C env (.named i.name.str) (item i.name)
  signed : ∀ e a t, (enums.find? fun x => x.name = e.name) = some e → e.asRef = some a → e.tryFrom = some t →
    GoodRes C env (.signed32 e.name.str (signed32Of e.variants a t)) (item e.name)

theorem GoodItems.path {C : Prop} {env : Env} {enums : List EnumItem} {types : List Item}
    {item : RIdent → Res Val} (h : GoodItems C env enums types item) {i : RIdent}
    (hi : i ∈ types.map Item.name) : GoodRes C env (.named i.str) (item i) := by
  obtain ⟨t, ht, rfl⟩ := List.mem_map.1 hi
  exact h.named t ht

/-- Types with attribute. -/
theorem good_field {C : Prop} {env : Env} (henv : env variableArrayName = some variableArrayDef)
    {cs : List ConstItem} {enums : List EnumItem} {types : List Item} {item : RIdent → Res Val}
    (hi : GoodItems C env enums types item) {a : Attr} {t : RTy}
    (hp : ∀ i ∈ t.paths, i ∈ types.map Item.name) {ty : Ty} (ht : fieldMeaning cs enums a t = some ty) :
    GoodRes C env ty (fieldDefault cs item a t) := by
  unfold fieldMeaning at ht
  split at ht
  · exact good_default henv (fun i hi' => hi.path (hp i hi')) ht
  · next len cast =>
    simp only [arrayTy] at ht
    simp only [fieldDefault]
    split at ht
    · next n hn =>
      split at ht
      · cases ht
        rw [hn]
        exact good_opaqueFixed n
      · cases ht
    · cases ht
  · cases ht
    exact good_opaqueVar
  · next i =>
    split at ht
    · next e he =>
      have hen : e.name = i := by simpa using List.find?_some he
      subst hen
      split at ht
      · next a t h1 h2 =>
        cases ht
        simp only [fieldDefault, RTy.defaultWith]
        exact hi.signed e a t he h1 h2
      · cases ht
    · cases ht
  · cases ht

/-- What several defaults may end in. -/
def GoodResEach (C : Prop) (env : Env) (ts : List Ty) : Res (List Val) → Prop
  | .ok vs => GoodEach C env ts vs
  | .depth => True
  | _ => False

theorem good_each {C : Prop} {env : Env} {α : Type} {f : α → Res Val} {l : List α} {ts : List Ty}
    (h : List.Forall₂ (fun a t => GoodRes C env t (f a)) l ts) : GoodResEach C env ts (resMapM f l) := by
  induction h with
  | nil => exact .nil
  | @cons a t l ts h _ ih =>
    simp only [resMapM]
    cases hr : f a with
    | err e => rw [hr] at h; exact h
    | panic p => rw [hr] at h; exact h
    | depth => trivial
    | ok v =>
      rw [hr] at h
      simp only [Res.bind]
      cases hrs : resMapM f l with
      | err e => rw [hrs] at ih; exact ih
      | panic p => rw [hrs] at ih; exact ih
      | depth => trivial
      | ok vs =>
        rw [hrs] at ih
        exact .cons h ih

theorem GoodResEach.bind {C : Prop} {env : Env} {ts : List Ty} {t : Ty} {r : Res (List Val)}
    {f : List Val → Val} (h : GoodResEach C env ts r) (hf : ∀ vs, r = .ok vs → GoodEach C env ts vs → GoodVal C env t (f vs)) :
    GoodRes C env t (r.bind fun vs => .ok (f vs)) := by
  cases r with
  | ok vs => exact hf vs rfl h
  | err e => exact h
  | panic p => exact h
  | depth => trivial

theorem fieldsMeaning_inv {cs : List ConstItem} {enums : List EnumItem} {fs : List (Attr × RIdent × RTy)}
    {r : List (String × Ty)} (h : fieldsMeaning cs enums fs = some r) :
    List.Forall₂ (fun f t => fieldMeaning cs enums f.1 f.2.2 = some t) fs (r.map (·.2)) := by
  induction fs generalizing r with
  | nil =>
    cases h
    exact .nil
  | cons f fs ih =>
    obtain ⟨a, i, t⟩ := f
    simp only [fieldsMeaning] at h
    split at h
    · split at h
      · next h1 h2 =>
        cases h
        exact .cons h1 (ih h2)
      · cases h
    · cases h

theorem tysMeaning_ok {cs : List ConstItem} {ts : List RTy} {r : List Ty} (h : tysMeaning cs ts = some r) :
    List.Forall₂ (fun t t' => t.meaning cs = some t') ts r := by
  induction ts generalizing r with
  | nil =>
    cases h
    exact .nil
  | cons t ts ih =>
    simp only [tysMeaning] at h
    split at h
    · next h1 h2 =>
      cases h
      exact .cons h1 (ih h2)
    · cases h

/-- Structs. -/
theorem good_structItem {C : Prop} {env : Env} (henv : env variableArrayName = some variableArrayDef)
    {cs : List ConstItem} {enums : List EnumItem} {types : List Item} {item : RIdent → Res Val}
    (hi : GoodItems C env enums types item) {s : StructItem}
    (hp : ∀ i ∈ (Item.struct s).paths, i ∈ types.map Item.name) {d : Def} (hd : s.meaning cs enums = some d)
    (hl : env s.name.str = some d) : GoodRes C env (.named s.name.str) (s.defaultVal cs item) := by
  unfold StructItem.meaning at hd
  split at hd
  · simp only [Option.map_eq_some_iff] at hd
    obtain ⟨fs, hfs, rfl⟩ := hd
    refine (good_each ?_).bind fun vs _ hvs => good_struct hl hvs
    have := fieldsMeaning_inv hfs
    have hp' : ∀ f ∈ s.fields, ∀ i ∈ f.2.2.paths, i ∈ types.map Item.name := fun f hf i hi =>
      hp i (List.mem_flatMap.2 ⟨f, hf, hi⟩)
    clear hfs hl hp
    generalize s.fields = l at this hp'
    generalize fs.map (·.2) = r at this
    induction this with
    | nil => exact .nil
    | cons h _ ih =>
      exact .cons (good_field henv hi (hp' _ List.mem_cons_self) h) (ih fun f hf => hp' f (List.mem_cons_of_mem _ hf))
  · cases hd

theorem _root_.Xdr.Rep.good {C : Prop} {env : Env} {t : Ty} {v : Val} {x : XVal} (h : Rep env t v x)
    (hb : (Rfc.encode x).isSome) : GoodVal C env t v := by
  obtain ⟨y, hy, he⟩ := h.xdr
  exact ⟨h.hasTy, fun _ => ⟨h.fits, encodes hy (by rw [he]; exact hb)⟩⟩

theorem encode_enum_isSome {k : Int} (h : -2147483648 ≤ k ∧ k ≤ 2147483647) :
    (Rfc.encode (.enum k)).isSome := by
  obtain ⟨bs, hb⟩ := encode_enum h
  rw [hb]
  rfl

/-! ## Enums -/

/-- The default of an enum is the member the generated lists begin with. -/
structure EnumDflt (e : EnumItem) (k : Int) : Prop where
  range : -2147483648 ≤ k ∧ k ≤ 2147483647
  mem : (e.default, k) ∈ e.variants
  asRef : ∀ a, e.asRef = some a → a.head? = some (e.default, k)
  tryFrom : ∀ t, e.tryFrom = some t → t.head? = some (k, e.default)
  byIndex : ∀ ix, e.indexer = some ix → ix.byIndex.head? = some (k, e.default)
  index : ∀ ix, e.indexer = some ix → ix.index.head? = some (e.default, k)

theorem arm_head {α β : Type} [DecidableEq α] {k : α} {v : β} {arms : List (α × β)}
    (h : arms.head? = some (k, v)) : arm k arms = some v := by
  cases arms with
  | nil => cases h
  | cons a l =>
    cases h
    simp [arm]

theorem EnumDflt.pos {e : EnumItem} {k : Int} (h : EnumDflt e k) (hnd : (e.variants.map (·.1.str)).Nodup) :
    ∃ i, e.variants[i]? = some (e.default, k) ∧ variantPos e.default e.variants = some i ∧
      e.defaultVal = .ok (.variant i []) := by
  obtain ⟨i, hi⟩ := List.mem_iff_getElem?.1 h.mem
  have := variantPos_of (nodup_of_str hnd) hi
  simp only at this
  exact ⟨i, hi, this, by simp [EnumItem.defaultVal, this]⟩

theorem good_enumItem {C : Prop} {env : Env} {e : EnumItem} {k : Int} (he : EnumDflt e k) {d : Def}
    (hd : e.meaning = some d) (hl : env e.name.str = some d) (hC : C → e.variants.length ≤ 2147483648) :
    GoodRes C env (.named e.name.str) e.defaultVal := by
  obtain ⟨hnd, hcase⟩ := enum_meaning_ok hd
  obtain ⟨i, hi, -, hv⟩ := he.pos hnd
  rw [hv]
  show GoodVal C env _ _
  rcases hcase with ⟨-, rfl⟩ | ⟨-, ix, hix, rfl⟩
  · have hi' : (e.variants.map fun v => (v.1.str, Shape.unit))[i]? = some (e.default.str, .unit) := by simp [hi]
    refine ⟨by simp [HasTy, present, hl, hi'], fun c => ?_⟩
    have hlt := (List.getElem?_eq_some_iff.1 hi).1
    have hle := hC c
    exact ((rep_enum hl hi' (by omega)).good (C := True) (encode_enum_isSome (by omega))).back trivial
  · have hi' : (e.variants.map fun v => (v.1.str, (none : Option (List Ty))))[i]? = some (e.default.str, none) := by
      simp [hi]
    have hkk := toInt_ofInt he.range
    refine (rep_indexer_unit hl hi' (k := Int32.ofInt k) ?_ ?_ ?_).good
      (encode_enum_isSome (by rw [hkk]; exact he.range))
    · simp [enumIndexerImpl, hi, arm_head (he.index ix hix)]
    · simp only [enumIndexerImpl, hkk, arm_head (he.byIndex ix hix)]
    · refine first_of_nodup ?_ hi'
      simpa [List.map_map, Function.comp_def] using hnd

theorem good_signed {C : Prop} {env : Env} {e : EnumItem} {k : Int} (he : EnumDflt e k) {d : Def}
    (hd : e.meaning = some d) (hl : env e.name.str = some d) (hni : e.deriveIndexer = false)
    {a : List (RIdent × Int)} {t : List (Int × RIdent)} (ha : e.asRef = some a) (ht : e.tryFrom = some t) :
    GoodRes C env (.signed32 e.name.str (signed32Of e.variants a t)) e.defaultVal := by
  obtain ⟨hnd, hcase⟩ := enum_meaning_ok hd
  obtain ⟨i, hi, hpos, hv⟩ := he.pos hnd
  rw [hv]
  show GoodVal C env _ _
  rcases hcase with ⟨-, rfl⟩ | ⟨h, -⟩
  · have hi' : (e.variants.map fun v => (v.1.str, Shape.unit))[i]? = some (e.default.str, .unit) := by simp [hi]
    have hkk := toInt_ofInt he.range
    have h1 : (signed32Of e.variants a t).as_ref (.variant i []) = Int32.ofInt k := by
      simp [signed32Of, hi, arm_head (he.asRef a ha)]
    have h2 : (signed32Of e.variants a t).try_from (Int32.ofInt k) = .ok (.variant i []) := by
      simp only [signed32Of, hkk, arm_head (he.tryFrom t ht), hpos]
    have := rep_signed32 (impl := signed32Of e.variants a t) hl hi' (by rw [h1, h2])
    refine this.good (encode_enum_isSome ?_)
    rw [h1, hkk]
    exact he.range
  · rw [hni] at h
    cases h

theorem checked_range {t : IntTy} {v k : Int} (h : t.checked v = some k) : t.min ≤ k ∧ k ≤ t.max := by
  unfold IntTy.checked at h
  split at h
  · next hr =>
    cases h
    exact hr
  · cases h

theorem digitsLoop_range {t : IntTy} {radix : Nat} {neg : Bool} {s : Str} {acc k : Int}
    (ha : t.min ≤ acc ∧ acc ≤ t.max) (h : digitsLoop t radix neg s acc = some k) : t.min ≤ k ∧ k ≤ t.max := by
  induction s generalizing acc with
  | nil =>
    cases h
    exact ha
  | cons c s ih =>
    simp only [digitsLoop] at h
    split at h
    · cases h
    · split at h
      · cases h
      · split at h
        · cases h
        · next acc' hacc =>
          refine ih ?_ h
          exact checked_range hacc

theorem constant_value_range {t : IntTy} {c : Constant} {k : Int} (h : c.value t = .ok k) :
    t.min ≤ k ∧ k ≤ t.max := by
  have h0 : t.min ≤ 0 ∧ 0 ≤ t.max := by cases t <;> decide
  have hf : ∀ radix s, from_str_radix t radix s = some k → t.min ≤ k ∧ k ≤ t.max := by
    intro radix s hs
    unfold from_str_radix at hs
    split at hs
    all_goals first
      | cases hs
      | exact digitsLoop_range h0 hs
      | skip
    split at hs <;> exact digitsLoop_range h0 hs
  unfold Constant.value GR.okOr at h
  split at h
  · next v hv =>
    cases h
    unfold Constant.tryInto at hv
    split at hv <;> exact hf _ _ hv
  · cases h

theorem resolve_range {cxt : Context} {t : IntTy} {n : Nat} {v : Value} {k : Int}
    (h : cxt.resolve_value t n v = .ok k) : t.min ≤ k ∧ k ≤ t.max := by
  induction n generalizing v with
  | zero =>
    cases v with
    | constant c => exact constant_value_range h
    | identifier s => cases h
  | succ n ih =>
    cases v with
    | constant c => exact constant_value_range h
    | identifier s =>
      have hf : ∀ o, resolveFound (cxt.resolve_name t n) t s o = .ok k → t.min ≤ k ∧ k ≤ t.max := by
        intro o ho
        cases o with
        | none => cases ho
        | some v => exact ih ho
      change GR.orElse _ _ = _ at h
      unfold GR.orElse at h
      split at h
      · exact hf _ h
      · exact hf _ h

/-- Generated enums. -/
theorem enum_dflt {cxt : Context} {n : Nat} {name : Str} {as : List Assign} {e : EnumItem}
    (h : convert_enum_token cxt n name as = .ok e) : ∃ k, EnumDflt e k := by
  obtain ⟨indexed, steps, h1, h2, h3, ⟨st, hst, hdef⟩, h4, h5, h6, h7, h8⟩ := convert_enum_ok h
  refine ⟨st.2.2, ?_, ?_, ?_, ?_, ?_, ?_⟩
  · obtain ⟨⟨k, a⟩, hp, -, hk, -⟩ := forall₂_mem_right (enumLoop_ok h3) (List.mem_of_head? hst)
    obtain ⟨b, hb, hr⟩ := forall₂_mem_right (GR.mapM_ok.1 h1) (mem_sortByKey.1 hp)
    simp only [GR.bind_eq_ok, GR.ok.injEq, Prod.mk.injEq] at hr
    obtain ⟨j, hj, rfl, -⟩ := hr
    rw [hk]
    exact resolve_range hj
  · rw [h5, hdef]
    exact List.mem_flatMap.2 ⟨st, List.mem_of_head? hst, by simp⟩
  · intro a ha
    rw [h6] at ha
    split at ha <;> cases ha
    simp [hst, hdef]
  · intro a ha
    rw [h7] at ha
    split at ha <;> cases ha
    simp [hst, hdef]
  · intro a ha
    rw [h8] at ha
    split at ha <;> cases ha
    simp [hst, hdef]
  · intro a ha
    rw [h8] at ha
    split at ha <;> cases ha
    simp [hst, hdef]

/-! ## Unions -/

/-- The default of a union is `v`, with all its fields; without default arm it is the variant the generated
lists begin with. -/
structure UnionDflt (u : UnionItem) (v : Variant) : Prop where
  mem : v ∈ u.variants
  name : v.name = u.default.1
  count : v.fields.length = u.default.2
  few : v.fields.length ≤ 2
  disc : u.derive = .union → v.fields ≠ []
  index : ∀ ix, u.indexer = some ix → ix.indexOtherwise = false → ∃ k b,
    (-2147483648 ≤ k ∧ k ≤ 2147483647) ∧ ix.byIndex.head? = some (k, u.default.1) ∧
    ix.index.head? = some (u.default.1, b, k)

theorem convert_case_default {cxt : Context} {n : Nat} {v : Value} {d : Declaration} {cond : TypeSpecifier}
    {c : CaseTok} (h : convert_case_token cxt n v d cond = .ok c) :
    c.value.name = c.default.1 ∧ c.default.1 = c.variant ∧ c.value.fields.length = c.default.2 ∧
      c.value.fields.length ≤ 2 ∧ (cxt.config.union_impl_union = true → c.value.fields ≠ []) := by
  unfold convert_case_token at h
  simp only [GR.bind_eq_ok] at h
  obtain ⟨tok, h1, ct, h2, o, h3, h⟩ := h
  cases o with
  | none =>
    simp only at h
    split at h
    · cases h
      simp
    · next hu =>
      cases h
      simp [hu]
  | some p =>
    obtain ⟨ty, op⟩ := p
    simp only at h
    split at h
    · cases h
      simp
    · next hu =>
      cases h
      simp

/-- What a step of a union says of its default. -/
structure StepDflt (cxt : Context) (st : CaseStep) (v : Variant) : Prop where
  mem : v ∈ st.variants
  name : v.name = st.default.1
  count : v.fields.length = st.default.2
  few : v.fields.length ≤ 2
  disc : cxt.config.union_impl_union = true → v.fields ≠ []
  index : ∃ k b, (-2147483648 ≤ k ∧ k ≤ 2147483647) ∧ st.byIndex = (k, st.default.1) ∧
    st.index = (st.default.1, b, k)

theorem asI32_bounds {k : Int} (h : 0 ≤ k ∧ k + 1 ≤ 4294967295) :
    -2147483648 ≤ asI32 k ∧ asI32 k ≤ 2147483647 := by
  unfold asI32
  split <;> omega

theorem unionLoop_default {cxt : Context} {n : Nat} {cond : TypeSpecifier}
    {l : List (Int × Declaration × Value)} (hl : ∀ p ∈ l, 0 ≤ p.1) {s : Int} {steps : List CaseStep}
    (h : unionLoop cxt n cond l s = .ok steps) : ∀ st ∈ steps, ∃ v, StepDflt cxt st v := by
  induction l generalizing s steps with
  | nil =>
    cases h
    simp
  | cons p l ih =>
    obtain ⟨e, d, v⟩ := p
    simp only [unionLoop, GR.bind_eq_ok] at h
    obtain ⟨r, hr, c, hc, bv, hbv, h⟩ := h
    split at h
    · cases h
    · next hmax =>
      simp only [GR.bind_eq_ok, GR.ok.injEq] at h
      obtain ⟨rest, hrest, rfl⟩ := h
      intro st hst
      rcases List.mem_cons.1 hst with rfl | hst
      · obtain ⟨g1, g2, g3, g4, g5⟩ := convert_case_default hc
        refine ⟨c.value, by simp, g1, g3, g4, g5, asI32 e, c.arm, ?_, by simp [g2], by simp [g2]⟩
        have := hl _ List.mem_cons_self
        simp only [IntTy.max] at hmax
        exact asI32_bounds ⟨this, by omega⟩
      · exact ih (fun p hp => hl p (List.mem_cons_of_mem _ hp)) hrest st hst

theorem boolCase_default {cxt : Context} {n : Nat} {cond : TypeSpecifier} {specs : List CaseSpec}
    {label : Value → Bool} {b : Bool} {st : CaseStep}
    (h : boolCase cxt n cond specs label b = .ok (some st)) : ∃ v, StepDflt cxt st v := by
  rcases boolCase_ok h with ⟨h, -⟩ | ⟨c, h, l, -, -, hc⟩
  · cases h
  · cases h
    obtain ⟨g1, g2, g3, g4, g5⟩ := convert_case_default hc
    exact ⟨c.value, by simp [boolStep], g1, g3, g4, g5, if b then 1 else 0, c.arm, by cases b <;> simp,
      by simp [boolStep, g2], by simp [boolStep, g2]⟩

/-- Generated unions. -/
theorem union_dflt {cxt : Context} {n : Nat} {name : Str} {b : UnionBody} {u : UnionItem}
    (h : convert_union_token cxt n name b = .ok u)
    (hcond : cxt.config.union_impl_union = true → ∀ un, u.union = some un → un.cond ≠ none) :
    ∃ v, UnionDflt u v := by
  obtain ⟨ct, acc, dflt, -, hcases, hdflt, hd, hder, hvars, hix, hun⟩ := convert_union_ok h
  have hdu : u.derive = .union → cxt.config.union_impl_union = true := by
    intro e
    rw [hder] at e
    split at e
    · cases e
    · split at e
      · assumption
      · cases e
  cases hb : b.default with
  | some d =>
    rw [hb] at hdflt
    simp only [unionDefault, GR.bind_eq_ok, GR.ok.injEq] at hdflt
    obtain ⟨o, -, rfl⟩ := hdflt
    simp only [Option.map_some, Option.some_or, Option.some.injEq] at hd
    have hc : cxt.config.union_impl_union = true → acc.cond.toList.length = 1 := by
      intro hu
      have := hcond hu _ (by rw [hun, if_pos hu])
      cases hac : acc.cond with
      | none => exact absurd hac this
      | some x => rfl
    refine ⟨_, by rw [hvars]; simp only [Option.map_some, Option.toList_some]; exact List.mem_append_right _ List.mem_cons_self, ?_, ?_, ?_, ?_, ?_⟩
    · rw [← hd]
    · rw [← hd]
      simp only [List.length_append]
      cases hu : cxt.config.union_impl_union with
      | true =>
        have := hc hu
        cases o <;> simp [this]
      | false => cases o <;> simp
    · simp only [List.length_append]
      cases hu : cxt.config.union_impl_union with
      | true =>
        have := hc hu
        cases o <;> simp [this]
      | false => cases o <;> simp
    · intro e
      have hu := hdu e
      have := hc hu
      intro hnil
      rw [if_pos hu] at hnil
      have hl := congrArg List.length hnil
      simp only [List.length_append, List.length_nil, this] at hl
      omega
    · intro ix h1 h2
      rw [hix, hb] at h1
      split at h1
      · cases h1
        cases h2
      · cases h1
  | none =>
    rw [hb] at hdflt
    cases hdflt
    simp only [Option.map_none, Option.none_or] at hd
    suffices hs : ∃ st v, StepDflt cxt st v ∧ st.default = u.default ∧ (∀ x ∈ st.variants, x ∈ acc.variants) ∧
        acc.byIndex.head? = some st.byIndex ∧ acc.index.head? = some st.index by
      obtain ⟨st, v, ⟨h1, h2, h3, h4, h5, k, b', h6, h7, h8⟩, e, hv, hbi, hii⟩ := hs
      rw [e] at h2 h3 h7 h8
      refine ⟨v, by rw [hvars]; exact List.mem_append_left _ (hv v h1), h2, h3, h4, fun e => h5 (hdu e), ?_⟩
      intro ix g1 g2
      rw [hix] at g1
      split at g1
      · cases g1
        exact ⟨k, b', h6, by rw [hbi, h7], by rw [hii, h8]⟩
      · cases g1
    have hloop : ∀ values steps, unionIndexed cxt n b.specs = .ok values →
        unionLoop cxt n ct (sortByKey values) 0 = .ok steps → acc = UnionAcc.ofSteps steps →
        ∃ st v, StepDflt cxt st v ∧ st.default = u.default ∧ (∀ x ∈ st.variants, x ∈ acc.variants) ∧
        acc.byIndex.head? = some st.byIndex ∧ acc.index.head? = some st.index := by
      rintro values steps h1 h2 rfl
      cases steps with
      | nil => cases hd
      | cons st rest =>
        obtain ⟨v, hv⟩ := unionLoop_default (fun p hp => by
          obtain ⟨q, -, hq⟩ := forall₂_mem_right (GR.mapM_ok.1 h1) (mem_sortByKey.1 hp)
          simp only [GR.bind_eq_ok, GR.ok.injEq] at hq
          obtain ⟨j, hj, rfl⟩ := hq
          exact (resolve_range hj).1) h2 st List.mem_cons_self
        refine ⟨st, v, hv, ?_, fun x hx => ?_, rfl, rfl⟩
        · simpa [UnionAcc.ofSteps] using hd
        · simp only [UnionAcc.ofSteps, List.flatMap_cons]
          exact List.mem_append_left _ hx
    unfold unionCases at hcases
    split at hcases
    · next cond_type nm hct =>
      split at hcases
      · simp only [GR.bind_eq_ok, GR.ok.injEq, Prod.mk.injEq] at hcases
        obtain ⟨values, h1, steps, h2, rfl, rfl⟩ := hcases
        exact hloop _ _ h1 h2 rfl
      · simp only [GR.bind_eq_ok, GR.ok.injEq, Prod.mk.injEq] at hcases
        obtain ⟨values, h1, steps, h2, rfl, rfl⟩ := hcases
        exact hloop _ _ h1 h2 rfl
      · simp only [GR.bind_eq_ok, GR.ok.injEq, Prod.mk.injEq] at hcases
        obtain ⟨f, h1, t, h2, rfl, rfl⟩ := hcases
        cases f with
        | some st =>
          obtain ⟨v, hv⟩ := boolCase_default h1
          exact ⟨st, v, hv, by simpa using hd, fun x hx => List.mem_append_left _ hx, by simp, by simp⟩
        | none =>
          cases t with
          | none => cases hd
          | some st =>
            obtain ⟨v, hv⟩ := boolCase_default h2
            exact ⟨st, v, hv, by simpa using hd, fun x hx => List.mem_append_right _ hx, by simp, by simp⟩
      · cases hcases
    · cases hcases

theorem UnionDflt.pos {u : UnionItem} {v : Variant} (h : UnionDflt u v)
    (hnd : (u.variants.map (·.name.str)).Nodup) :
    ∃ i, u.variants[i]? = some v ∧ ∀ cs item, u.defaultVal cs item =
      (resMapM (fieldDefault cs item v.attr) v.fields).bind fun vs => .ok (.variant i vs) := by
  obtain ⟨i, hi⟩ := List.mem_iff_getElem?.1 h.mem
  have hf : (u.variants.findIdx? fun v => v.name = u.default.1) = some i := by
    rw [List.findIdx?_eq_some_iff_getElem]
    obtain ⟨hlt, hv⟩ := List.getElem?_eq_some_iff.1 hi
    refine ⟨hlt, by simp [hv, h.name], fun j hj => ?_⟩
    simp only [Bool.not_eq_true, decide_eq_false_iff_not]
    intro e
    have := (List.nodup_iff_injective_getElem.1 hnd) (a₁ := ⟨j, by simp; omega⟩) (a₂ := ⟨i, by simpa using hlt⟩)
      (by simp [e, hv, h.name])
    simp only [Fin.mk.injEq] at this
    omega
  exact ⟨i, hi, fun cs item => by simp only [UnionItem.defaultVal, hf, hi, h.count, if_true]⟩

theorem forall₂_getElem {α β : Type} {R : α → β → Prop} {l : List α} {r : List β} (h : List.Forall₂ R l r)
    {i : Nat} {a : α} (ha : l[i]? = some a) : ∃ b, r[i]? = some b ∧ R a b := by
  induction h generalizing i with
  | nil => simp at ha
  | cons h _ ih =>
    cases i with
    | zero =>
      simp only [List.getElem?_cons_zero, Option.some.injEq] at ha
      subst ha
      exact ⟨_, rfl, h⟩
    | succ i => exact ih (by simpa using ha)

theorem good_tys {C : Prop} {env : Env} (henv : env variableArrayName = some variableArrayDef)
    {cs : List ConstItem} {enums : List EnumItem} {types : List Item} {item : RIdent → Res Val}
    (hi : GoodItems C env enums types item) {l : List RTy} {ts : List Ty}
    (hp : ∀ t ∈ l, ∀ i ∈ t.paths, i ∈ types.map Item.name) (ht : tysMeaning cs l = some ts) :
    GoodResEach C env ts (resMapM (fieldDefault cs item .none) l) := by
  refine good_each ?_
  have := tysMeaning_ok ht
  clear ht
  induction this with
  | nil => exact .nil
  | cons h _ ih =>
    exact .cons (good_default henv (fun i hi' => hi.path (hp _ List.mem_cons_self i hi')) h)
      (ih fun t ht => hp t (List.mem_cons_of_mem _ ht))

theorem good_newtype {C : Prop} {env : Env} {name : String} {vars : List (String × Shape)}
    (hl : env name = some (.enum vars)) {i : Nat} {vn : String} {ty : Ty} (hvi : vars[i]? = some (vn, .newtype ty))
    (hC : C → i < 2147483648) {x : Val} (hg : GoodVal C env ty x) :
    GoodVal C env (.named name) (.variant i [x]) := by
  obtain ⟨h1, h2⟩ := hg
  refine ⟨by simpa [HasTy, present, hl, hvi] using h1, fun c => ?_⟩
  have hle := hC c
  obtain ⟨f, y, bs, hy, hb⟩ := h2 c
  obtain ⟨ks, hks⟩ := encode_enum (k := i) (by omega)
  refine ⟨?_, .union (.enum i) y, ks ++ bs, by simp [toXdr, hl, hvi, hy], ?_⟩
  · simp only [Fits, hl, hvi]
    exact ⟨by omega, f⟩
  · rw [Rfc.encode, hks, hb]
    rfl

theorem good_unionItem {C : Prop} {env : Env} (henv : env variableArrayName = some variableArrayDef)
    {cs : List ConstItem} {enums : List EnumItem} {types : List Item} {item : RIdent → Res Val}
    (hi : GoodItems C env enums types item) {u : UnionItem} {v : Variant} (hu : UnionDflt u v)
    (hp : ∀ i ∈ (Item.union u).paths, i ∈ types.map Item.name) {d : Def} (hd : u.meaning cs enums = some d)
    (hl : env u.name.str = some d) (hC : C → u.variants.length ≤ 2147483648)
    (hCi : C → u.derive = .indexer → ∀ ix, u.indexer = some ix → ix.indexOtherwise = false)
    (hCu : C → u.derive = .union → ∀ un cond dv, u.union = some un → un.cond = some cond →
      cond.defaultWith cs item = .ok dv → (unionUnionImpl enums un).name_by_value dv = .ok u.default.1.str) :
    GoodRes C env (.named u.name.str) (u.defaultVal cs item) := by
  have hpv : ∀ t ∈ v.fields, ∀ i ∈ t.paths, i ∈ types.map Item.name := fun t ht i hi' =>
    hp i (List.mem_flatMap.2 ⟨v, hu.mem, List.mem_flatMap.2 ⟨t, ht, hi'⟩⟩)
  cases hder : u.derive with
  | serde =>
    obtain ⟨hnd, vars, hvars, rfl⟩ := union_meaning_serde hd hder
    obtain ⟨i, hiv, hdv⟩ := hu.pos hnd
    rw [hdv]
    have hlt := (List.getElem?_eq_some_iff.1 hiv).1
    obtain ⟨⟨vn, sh⟩, hvi, id, -, -, -, hsh⟩ := forall₂_getElem (variantsMeaning_ok hvars) hiv
    simp only [Variant.shape] at hsh
    split at hsh
    · next hf =>
      cases hsh
      rw [hf]
      show GoodVal C env _ _
      refine ⟨by simp [HasTy, present, hl, hvi], fun c => ?_⟩
      have hle := hC c
      exact ((rep_enum hl hvi (by omega)).good (C := True) (encode_enum_isSome (by omega))).back trivial
    · next t hf =>
      simp only [Option.map_eq_some_iff] at hsh
      obtain ⟨ty, hty, rfl⟩ := hsh
      have hg := good_field henv hi (hpv t (by simp [hf])) hty
      rw [hf]
      simp only [resMapM]
      cases hr : fieldDefault cs item v.attr t with
      | err e => rw [hr] at hg; exact hg
      | panic p => rw [hr] at hg; exact hg
      | depth => trivial
      | ok x =>
        rw [hr] at hg
        show GoodVal C env _ (.variant i [x])
        exact good_newtype hl hvi (fun c => by have := hC c; omega) hg
    · cases hsh
  | indexer =>
    obtain ⟨hnd, ix, vars, hix, hvars, rfl⟩ := union_meaning_indexer hd hder
    obtain ⟨i, hiv, hdv⟩ := hu.pos hnd
    rw [hdv]
    obtain ⟨⟨vn, sh⟩, hvi, id, hid, -, hvn, hsh⟩ := forall₂_getElem (variantsMeaning_ok hvars) hiv
    simp only at hvn hsh
    have himpl : C → ∃ k : Int32, (∀ vs, (unionIndexerImpl u.variants ix).index i vs = .ok k) ∧
        (unionIndexerImpl u.variants ix).name_by_index k = .ok vn ∧ (Rfc.encode (.enum k.toInt)).isSome := by
      intro c
      obtain ⟨k, b, hk, h1, h2⟩ := hu.index ix hix (hCi c hder ix hix)
      refine ⟨Int32.ofInt k, fun vs => ?_, ?_, ?_⟩
      · simp [unionIndexerImpl, hiv, hu.name, arm_head h2]
      · simp only [unionIndexerImpl, toInt_ofInt hk, arm_head h1]
        rw [← hu.name, hid, hvn]
        rfl
      · rw [toInt_ofInt hk]
        exact encode_enum_isSome hk
    have hfirst := first_of_nodup (names_nodup hvars hnd) hvi
    simp only [Variant.types] at hsh
    split at hsh
    · next hattr =>
      split at hsh
      · next hf =>
        cases hsh
        rw [hf]
        show GoodVal C env _ _
        refine ⟨by simp [HasTy, present, hl, hvi], fun c => ?_⟩
        obtain ⟨k, h1, h2, h3⟩ := himpl c
        refine ⟨?_, encodes (y := .union (.enum k.toInt) .void) (by simp [toXdr, hl, hvi, h1]) ?_⟩
        · simp only [Fits, hl, hvi]
          exact ⟨⟨k, h1 _, h2⟩, hfirst, trivial⟩
        · obtain ⟨b, hb⟩ := Option.isSome_iff_exists.1 h3
          simp only [Rfc.encode] at hb ⊢
          simp [hb, Rfc.cat]
      · simp only [Option.map_eq_some_iff] at hsh
        obtain ⟨ts, hts, rfl⟩ := hsh
        rw [hattr]
        refine (good_tys henv hi hpv hts).bind fun vs hvs hg => ?_
        obtain ⟨g1, g2⟩ := hg
        refine ⟨by simpa [HasTy, present, hl, hvi] using g1, fun c => ?_⟩
        obtain ⟨k, h1, h2, h3⟩ := himpl c
        obtain ⟨f, ys, bs, hys, hbs⟩ := g2 c
        refine ⟨?_, encodes (y := .union (.enum k.toInt) (.struct ys)) (by simp [toXdr, hl, hvi, h1, hys]) ?_⟩
        · simp only [Fits, hl, hvi]
          have hlen := (tysMeaning_ok hts).length_eq
          have := hu.few
          exact ⟨⟨k, h1 _, h2⟩, hfirst, by omega, f⟩
        · obtain ⟨b, hb⟩ := Option.isSome_iff_exists.1 h3
          simp only [Rfc.encode] at hb ⊢
          simp [hb, hbs, Rfc.cat]
    · cases hsh
  | union =>
    obtain ⟨hnd, un, vars, cond, disc, hun, hvars, hc, -, -, hdisc, rfl⟩ := union_meaning_union hd hder
    have hhead : v.fields = [] ∨ v.fields.head? = some cond := by
      unfold UnionItem.meaning at hd
      rw [if_pos hnd, hder, hun, hvars] at hd
      simp only [hc] at hd
      split at hd
      · next hh => exact hh.2.1 v hu.mem
      · cases hd
    obtain ⟨i, hiv, hdv⟩ := hu.pos hnd
    rw [hdv]
    obtain ⟨⟨vn, sh⟩, hvi, id, hid, -, hvn, hsh⟩ := forall₂_getElem (variantsMeaning_ok hvars) hiv
    simp only at hvn hsh
    have hfirst := first_of_nodup (names_nodup hvars hnd) hvi
    simp only [Variant.types] at hsh
    split at hsh
    · next hattr =>
      split at hsh
      · next hf => exact absurd hf (hu.disc hder)
      · simp only [Option.map_eq_some_iff] at hsh
        obtain ⟨ts, hts, rfl⟩ := hsh
        rw [hattr]
        refine (good_tys henv hi hpv hts).bind fun vs hvs hg => ?_
        obtain ⟨g1, g2⟩ := hg
        refine ⟨by simpa [HasTy, present, hl, hvi] using g1, fun c => ?_⟩
        obtain ⟨f, ys, bs, hys, hbs⟩ := g2 c
        have hlen := (tysMeaning_ok hts).length_eq
        have hfew := hu.few
        -- the first field is the discriminant
        rcases hhead with hnil | hhead
        · exact absurd hnil (hu.disc hder)
        obtain ⟨rest, hfs⟩ : ∃ rest, v.fields = cond :: rest := by
          cases hvf : v.fields with
          | nil => rw [hvf] at hhead; cases hhead
          | cons a r => rw [hvf] at hhead; cases hhead; exact ⟨r, rfl⟩
        rw [hfs] at hts hvs hlen hfew
        have hvs' := resMapM_ok.1 hvs
        cases hvs' with
        | @cons _ dv _ vs' hdv' _ =>
        simp only [tysMeaning] at hts
        split at hts
        · next t0 ts0 ht0 hts0 =>
          cases hts
          rw [hdisc] at ht0
          cases ht0
          have hname := hCu c hder un cond dv hun hc hdv'
          have hvn' : u.default.1.str = vn := by
            rw [← hu.name, hid, hvn]
            rfl
          rw [hvn'] at hname
          simp only [List.length_cons] at hlen hfew
          refine ⟨?_, ?_⟩
          · simp only [Fits, hl, hvi]
            exact ⟨⟨_, _, _, rfl, rfl, by omega, hname⟩, hfirst, f⟩
          · cases ys with
            | nil =>
              exact encodes (y := .void) (by simp [toXdr, hl, hvi, hys]) (by simp [Rfc.encode])
            | cons y ys =>
              refine encodes (y := .union y (.struct ys)) (by simp [toXdr, hl, hvi, hys]) ?_
              simp only [Rfc.encodeAll] at hbs
              simp only [Rfc.encode, hbs]
              rfl
        · cases hts
    · cases hsh

/-! ## Files -/

theorem types_find {f : RustFile} (h : f.namesOk = true) {i : Item} (hi : i ∈ f.types) :
    (f.types.find? fun t => t.name = i.name) = some i := by
  have hnd := (namesOk_iff.1 h).1
  clear h
  generalize f.types = items at hi hnd
  induction items with
  | nil => cases hi
  | cons a items ih =>
    simp only [List.map_cons, List.nodup_cons] at hnd
    rcases List.mem_cons.1 hi with rfl | hi
    · simp
    · have hne : a.name ≠ i.name := fun e => hnd.1 (List.mem_map.2 ⟨i, hi, by rw [e]⟩)
      rw [List.find?_cons_of_neg (by simpa using hne)]
      exact ih hi hnd.2

theorem file_default_succ {f : RustFile} (h : f.namesOk = true) {i : Item} (hi : i ∈ f.types) (n : Nat) :
    f.default (n + 1) i.name = i.defaultVal f.constants (f.default n) := by
  simp only [RustFile.default, types_find h hi]

theorem mem_enums {f : RustFile} {e : EnumItem} : e ∈ f.enums ↔ .enum e ∈ f.types := by
  unfold RustFile.enums
  rw [List.mem_filterMap]
  constructor
  · rintro ⟨i, hi, h⟩
    split at h <;> cases h
    exact hi
  · intro h
    exact ⟨_, h, rfl⟩

theorem gen_enum_dflt {n : Nat} {ds : List Definition} {cfg : Config} {file : RustFile}
    (hg : gen_code n ds cfg = .ok file) {e : EnumItem} (he : .enum e ∈ file.types) :
    (∃ k, EnumDflt e k) ∧ e.deriveIndexer = cfg.enum_impl_indexer ∧
      (cfg.enum_impl_std_trait = false → e.asRef = none) := by
  obtain ⟨name, d, l, -, ht, hl⟩ := types_token_mem (gen_code_ok.1 hg).2.1 he
  have := typeToken_item ht hl
  cases d with
  | enum _ as =>
    simp only at this
    obtain ⟨_, _, _, _, _, -, h4, -, h6, -⟩ := convert_enum_ok this
    exact ⟨enum_dflt this, h4, fun h => by
      have h' : (setup_context ds cfg).config.enum_impl_std_trait = false := h
      rw [h6, h']
      simp⟩
  | declaration _ => exact this.elim
  | struct _ _ => exact this.elim
  | union _ _ => exact this.elim

theorem gen_union_dflt {n : Nat} {ds : List Definition} {cfg : Config} {file : RustFile}
    (hxu : ¬ (cfg.union_impl_indexer = true ∧ cfg.union_impl_union = true))
    (hg : gen_code n ds cfg = .ok file) {u : UnionItem} (hu : .union u ∈ file.types) {d : Def}
    (hd : u.meaning file.constants file.enums = some d) : ∃ v, UnionDflt u v := by
  obtain ⟨name, td, l, -, ht, hl⟩ := types_token_mem (gen_code_ok.1 hg).2.1 hu
  have := typeToken_item ht hl
  cases td with
  | union _ b =>
    simp only at this
    refine union_dflt this fun hcu un hun hn => ?_
    obtain ⟨_, _, _, _, _, _, _, hder, -⟩ := convert_union_ok this
    have hcu' : cfg.union_impl_union = true := hcu
    have hni : cfg.union_impl_indexer = false := by
      cases h : cfg.union_impl_indexer with
      | false => rfl
      | true => exact absurd ⟨h, hcu'⟩ hxu
    have hcfg : (setup_context ds cfg).config = cfg := rfl
    rw [hcfg, hni, hcu'] at hder
    simp only [Bool.false_eq_true, if_false, if_true] at hder
    obtain ⟨-, un', _, c, _, hun', -, hc, -⟩ := union_meaning_union hd hder
    rw [hun] at hun'
    cases hun'
    rw [hn] at hc
    cases hc
  | declaration _ => exact this.elim
  | struct _ _ => exact this.elim
  | enum _ _ => exact this.elim

/-- What must hold for defaults to be read back. -/
structure Reads (file : RustFile) : Prop where
  enums : ∀ e, .enum e ∈ file.types → e.variants.length ≤ 2147483648
  unions : ∀ u, .union u ∈ file.types → u.variants.length ≤ 2147483648
  indexer : ∀ u, .union u ∈ file.types → u.derive = .indexer → ∀ ix, u.indexer = some ix →
    ix.indexOtherwise = false
  union : ∀ u, .union u ∈ file.types → u.derive = .union → ∀ un cond m dv, u.union = some un →
    un.cond = some cond → cond.defaultWith file.constants (file.default m) = .ok dv →
    (unionUnionImpl file.enums un).name_by_value dv = .ok u.default.1.str

theorem file_default {n : Nat} {ds : List Definition} {cfg : Config} {file : RustFile}
    (hx : ¬ (cfg.enum_impl_indexer = true ∧ cfg.enum_impl_std_trait = true))
    (hxu : ¬ (cfg.union_impl_indexer = true ∧ cfg.union_impl_union = true))
    (hg : gen_code n ds cfg = .ok file) {defs : List (String × Def)} (hd : file.defs = some defs)
    {C : Prop} (hC : C → Reads file) (m : Nat) :
    GoodItems C (Xdr.program defs) file.enums file.types (file.default m) := by
  have henv := variableArray_lookup hg hd
  have hno := (defs_ok hd).1
  induction m with
  | zero => exact ⟨fun _ _ => trivial, fun _ _ _ _ _ _ => trivial⟩
  | succ m ih =>
    constructor
    · intro i hi
      obtain ⟨d, hd1, hd2⟩ := defs_lookup hd hi
      have hp := (namesOk_iff.1 hno).2.2.1 i hi
      rw [file_default_succ hno hi]
      cases i with
      | «alias» _ _ => cases hd1
      | enum e =>
        obtain ⟨⟨k, hk⟩, -⟩ := gen_enum_dflt hg hi
        exact good_enumItem hk hd1 hd2 fun c => (hC c).enums e hi
      | struct s => exact good_structItem henv ih hp hd1 hd2
      | union u =>
        obtain ⟨v, hv⟩ := gen_union_dflt hxu hg hi hd1
        exact good_unionItem henv ih hv hp hd1 hd2 (fun c => (hC c).unions u hi)
          (fun c => (hC c).indexer u hi) (fun c hder un cond dv => (hC c).union u hi hder un cond m dv)
    · intro e a t he ha ht
      have hmem := mem_enums.1 (List.mem_of_find?_eq_some he)
      obtain ⟨d, hd1, hd2⟩ := defs_lookup hd hmem
      obtain ⟨⟨k, hk⟩, hder, hstd⟩ := gen_enum_dflt hg hmem
      have hni : e.deriveIndexer = false := by
        rw [hder]
        cases h : cfg.enum_impl_indexer with
        | false => rfl
        | true =>
          cases hs : cfg.enum_impl_std_trait with
          | true => exact absurd ⟨h, hs⟩ hx
          | false =>
            rw [hstd hs] at ha
            cases ha
      have := file_default_succ hno hmem m
      simp only [Item.name] at this
      rw [this]
      exact good_signed hk hd1 hd2 hni ha ht

end Xdr.Rpcgen
