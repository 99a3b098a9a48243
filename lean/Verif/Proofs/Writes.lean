import Verif.Proofs.Pres
import Verif.Proofs.Ser
import Verif.Spec.Inside
/-! # Lemmas: which values can be written -/

namespace Xdr

/-- The result is a success. -/
def Res.Good (r : Res Bytes) : Prop := ∃ b, r = .ok b

theorem good_ok (b : Bytes) : (Res.ok b).Good := ⟨b, rfl⟩

theorem good_cat {a b : Res Bytes} : (a.cat b).Good ↔ a.Good ∧ b.Good := by
  cases a <;> cases b <;> simp [Res.cat, Res.bind, Res.Good]

theorem good_concat {rs : List (Res Bytes)} : (Res.concat rs).Good ↔ ∀ r ∈ rs, r.Good := by
  induction rs with
  | nil => simp [Res.concat, Res.Good]
  | cons r rs ih => simp [Res.concat, good_cat, ih]

/-- A failure of a concatenation is that of one of its parts. -/
theorem cat_fails {a b r : Res Bytes} (h : a.cat b = r) (hr : ¬ r.Good) : a = r ∨ b = r := by
  cases a with
  | ok x =>
    cases b with
    | ok y => exact absurd ⟨_, h.symm⟩ hr
    | _ => exact .inr h
  | _ => exact .inl h

theorem concat_fails {rs : List (Res Bytes)} {r : Res Bytes} (h : Res.concat rs = r) (hr : ¬ r.Good) : r ∈ rs := by
  induction rs generalizing r with
  | nil => exact absurd ⟨_, h.symm⟩ hr
  | cons x xs ih =>
    rcases cat_fails h hr with rfl | h
    · exact List.mem_cons_self
    · exact List.mem_cons_of_mem _ (ih h hr)

theorem presAll_parts {env : Env} {t : Ty} {vs : List Val} {ss : List SVal} (h : PresAll env t vs ss) :
    ss.map to_bytes = (vs.map fun v => (t, v)).map fun p => toBytes env p.1 p.2 := by
  induction vs generalizing ss with
  | nil => cases h; rfl
  | cons v vs ih =>
    cases h with
    | cons h1 h2 =>
      simp only [List.map_cons, ih h2, toBytes, h1.complete]

theorem presEach_parts {env : Env} {ts : List Ty} {vs : List Val} {ss : List SVal} (h : PresEach env ts vs ss) :
    ss.map to_bytes = (ts.zip vs).map fun p => toBytes env p.1 p.2 := by
  induction vs generalizing ts ss with
  | nil => cases h; rfl
  | cons v vs ih =>
    cases h with
    | cons h1 h2 =>
      simp only [List.map_cons, List.zip_cons_cons, ih h2, toBytes, h1.complete]

theorem presEach_lengths {env : Env} {ts : List Ty} {vs : List Val} {ss : List SVal} (h : PresEach env ts vs ss) :
    ss.length = ts.length := by
  induction vs generalizing ts ss with
  | nil => cases h; rfl
  | cons v vs ih =>
    cases h with
    | cons h1 h2 => simp [ih h2]

theorem zipNames_bytes {env : Env} {fs : List (String × Ty)} {vs : List Val} {ss : List SVal}
    (h : PresEach env (fs.map (·.2)) vs ss) :
    bytesFields (zipNames fs ss) = Res.concat (((fs.map (·.2)).zip vs).map fun p => toBytes env p.1 p.2) := by
  rw [← presEach_parts h]
  have hl := presEach_lengths h
  unfold bytesFields zipNames
  congr 1
  clear h
  induction fs generalizing ss with
  | nil =>
    cases ss with
    | nil => rfl
    | cons => simp at hl
  | cons f fs ih =>
    cases ss with
    | nil => simp at hl
    | cons s ss =>
      simp only [List.map_cons, List.zip_cons_cons, List.cons.injEq, true_and]
      exact ih (by simpa using hl)

theorem presEntries_parts {env : Env} {k t : Ty} {es : List (Val × Val)} {ss : List (SVal × SVal)}
    (h : PresEntries env k t es ss) :
    bytesEntries ss = Res.concat ((es.flatMap fun e => [(k, e.1), (t, e.2)]).map fun p => toBytes env p.1 p.2) := by
  induction es generalizing ss with
  | nil => cases h; rfl
  | cons e es ih =>
    cases h with
    | cons h1 h2 h3 =>
      have := ih h3
      unfold bytesEntries at this ⊢
      simp only [List.map_cons, Res.concat, this, List.flatMap_cons, List.cons_append, List.nil_append, toBytes,
        h1.complete, h2.complete, Res.cat_assoc]

/-- What writing a variant fails with, if it is not what is in it. -/
def Own (env : Env) (t : Ty) (v : Val) (r : Res Bytes) : Prop :=
  ∃ name i vs, t = .named name ∧ v = .variant i vs ∧ Refusal env name i vs r

/-- The parts of a value, written. -/
def partsBytes (env : Env) (t : Ty) (v : Val) : Res Bytes :=
  Res.concat ((parts env t v).map fun p => toBytes env p.1 p.2)

theorem index_cases (env : Env) {name : String} {i : Nat} {vs : List Val} {vars : List (String × Shape)}
    (he : env name = some (.enum vars)) : (indexBytes (UInt32.ofNat i)).Good ∧ (∀ r, ¬ Refusal env name i vs r) ∨
    indexBytes (UInt32.ofNat i) = .err .convert ∧ Refusal env name i vs (.err .convert) := by
  unfold indexBytes
  have e : (UInt32.ofNat i).toNat = i % 4294967296 := by simp [UInt32.toNat_ofNat']
  rw [e]
  by_cases h : i % 4294967296 < 2 ^ 31
  · rw [if_pos h]
    refine .inl ⟨good_ok _, fun r hr => ?_⟩
    cases hr with
    | number h1 h2 => omega
    | panic h1 h2 => rw [he] at h1; cases h1
    | err h1 h2 => rw [he] at h1; cases h1
    | depth h1 h2 => rw [he] at h1; cases h1
  · rw [if_neg h]
    exact .inr ⟨rfl, .number he (by omega)⟩

/-- A value is written if it is not refused itself and its parts are written, and its failures are among these. -/
def Sums (env : Env) (t : Ty) (v : Val) : Prop :=
  ((toBytes env t v).Good ↔ (∀ r, ¬ Own env t v r) ∧ (partsBytes env t v).Good) ∧
  ∀ r, toBytes env t v = r → ¬ r.Good → Own env t v r ∨ partsBytes env t v = r

/-- Values that are never refused themselves. -/
theorem sums_of {env : Env} {t : Ty} {v : Val} {b : Bytes} (h : toBytes env t v = (Res.ok b).cat (partsBytes env t v))
    (ho : ∀ r, ¬ Own env t v r) : Sums env t v := by
  refine ⟨?_, fun r hr hg => ?_⟩
  · rw [h, good_cat]
    exact ⟨fun h => ⟨ho, h.2⟩, fun h => ⟨good_ok _, h.2⟩⟩
  · rw [h] at hr
    rcases cat_fails hr hg with h | h
    · exact absurd ⟨_, h.symm⟩ hg
    · exact .inr h

theorem toBytes_pres {env : Env} {t : Ty} {v : Val} {s : SVal} (h : Pres env t v s) : toBytes env t v = nodeBytes s := by
  unfold toBytes
  rw [h.complete]
  exact to_bytes_node s

theorem u32s_good (l : List UInt32) : (bytesList (l.map .u32)).Good := by
  unfold bytesList
  rw [good_concat]
  intro r hr
  simp only [List.mem_map] at hr
  obtain ⟨s, ⟨x, -, rfl⟩, rfl⟩ := hr
  rw [to_bytes_node]
  exact good_ok _

/-- Variants of serde enums. -/
theorem sums_enum {env : Env} {name : String} {i : Nat} {vs : List Val} {vars : List (String × Shape)}
    (he : env name = some (.enum vars))
    (h : toBytes env (.named name) (.variant i vs) =
      (indexBytes (UInt32.ofNat i)).cat (partsBytes env (.named name) (.variant i vs))) :
    Sums env (.named name) (.variant i vs) := by
  rcases index_cases env (vs := vs) (i := i) he with ⟨⟨b, hb⟩, hn⟩ | ⟨hb, hn⟩
  · rw [hb] at h
    refine sums_of h ?_
    rintro r ⟨_, _, _, h1, h2, h3⟩
    cases h1
    cases h2
    exact hn r h3
  · have e : toBytes env (.named name) (.variant i vs) = .err .convert := by rw [h, hb]; rfl
    refine ⟨⟨fun ⟨b, hb⟩ => ?_, fun h => ?_⟩, fun r hr _ => ?_⟩
    · rw [e] at hb; cases hb
    · exact absurd ⟨_, _, _, rfl, rfl, hn⟩ (h.1 _)
    · rw [e] at hr
      subst hr
      exact .inl ⟨_, _, _, rfl, rfl, hn⟩

/-- Variants of `XdrIndexer` enums. -/
theorem sums_indexer {env : Env} {name : String} {i : Nat} {vs : List Val} {vars : List (String × Option (List Ty))}
    {impl : IndexerImpl} (he : env name = some (.indexer vars impl)) {k : Int32 → SVal}
    (h : toBytes env (.named name) (.variant i vs) = to_bytes (.ofUser (impl.index i vs) k))
    (hk : ∀ x, ∃ b, to_bytes (k x) = (Res.ok b).cat (partsBytes env (.named name) (.variant i vs))) :
    Sums env (.named name) (.variant i vs) := by
  have bad : ∀ r, ¬ r.Good → to_bytes (.ofUser (impl.index i vs) k) = r → Refusal env name i vs r →
      Sums env (.named name) (.variant i vs) := by
    intro r hg hr hn
    rw [hr] at h
    refine ⟨⟨fun hb => ?_, fun h => ?_⟩, fun r' hr' _ => ?_⟩
    · rw [h] at hb
      exact absurd hb hg
    · exact absurd ⟨_, _, _, rfl, rfl, hn⟩ (h.1 _)
    · rw [h] at hr'
      subst hr'
      exact .inl ⟨_, _, _, rfl, rfl, hn⟩
  have np : ∀ p, ¬ (Res.panic p : Res Bytes).Good := by
    rintro p ⟨b, hb⟩
    cases hb
  cases hi : impl.index i vs with
  | ok x =>
    obtain ⟨b, hb⟩ := hk x
    rw [hi] at h
    simp only [SVal.ofUser, hb] at h
    refine sums_of h ?_
    rintro r ⟨_, _, _, h1, h2, h3⟩
    cases h1
    cases h2
    cases h3 with
    | number h1 _ => rw [he] at h1; cases h1
    | panic h1 h2 => rw [he] at h1; cases h1; rw [hi] at h2; cases h2
    | err h1 h2 => rw [he] at h1; cases h1; rw [hi] at h2; cases h2
    | depth h1 h2 => rw [he] at h1; cases h1; rw [hi] at h2; cases h2
  | err e => exact bad _ (np _) (by rw [hi]; simp only [SVal.ofUser]; rw [to_bytes_node]; rfl) (.err he hi)
  | panic p => exact bad _ (np _) (by rw [hi]; simp only [SVal.ofUser]; rw [to_bytes_node]; rfl) (.panic he hi)
  | depth => exact bad _ (np _) (by rw [hi]; simp only [SVal.ofUser]; rw [to_bytes_node]; rfl) (.depth he hi)

theorem own_named {env : Env} {t : Ty} {v : Val} {r : Res Bytes} (h : Own env t v r) :
    ∃ name i vs, t = .named name ∧ v = .variant i vs ∧
      ((∃ vars, env name = some (.enum vars)) ∨ ∃ vars impl, env name = some (.indexer vars impl)) := by
  obtain ⟨name, i, vs, rfl, rfl, h⟩ := h
  refine ⟨name, i, vs, rfl, rfl, ?_⟩
  cases h with
  | number h _ => exact .inl ⟨_, h⟩
  | panic h _ => exact .inr ⟨_, _, h⟩
  | err h _ => exact .inr ⟨_, _, h⟩
  | depth h _ => exact .inr ⟨_, _, h⟩

theorem sums {env : Env} {t : Ty} {v : Val} {s : SVal} (h : Pres env t v s) : Sums env t v := by
  have hb := toBytes_pres h
  have leaf : ∀ b, nodeBytes s = .ok b → parts env t v = [] → (∀ r, ¬ Own env t v r) → Sums env t v := by
    intro b h1 h2 h3
    refine sums_of (b := b) ?_ h3
    rw [hb, h1, partsBytes, h2]
    simp [Res.concat]
  cases h with
  | some h =>
    refine sums_of (b := be32 1) ?_ ?_
    · rw [hb]
      simp [nodeBytes, partsBytes, parts, Res.concat, toBytes, h.complete]
    · rintro r h; obtain ⟨_, _, _, h1, -⟩ := own_named h; cases h1
  | vec h =>
    rename_i vs ss
    refine sums_of (b := lenBytes vs.length) ?_ ?_
    · rw [hb]
      simp only [nodeBytes, partsBytes, parts, bytesList, presAll_parts h]
      rfl
    · rintro r h; obtain ⟨_, _, _, h1, -⟩ := own_named h; cases h1
  | array h =>
    refine sums_of (b := []) ?_ ?_
    · rw [hb]
      simp only [nodeBytes, partsBytes, parts, bytesList, presAll_parts h, Res.nil_cat]
    · rintro r h; obtain ⟨_, _, _, h1, -⟩ := own_named h; cases h1
  | tuple h =>
    refine sums_of (b := []) ?_ ?_
    · rw [hb]
      simp only [nodeBytes, partsBytes, parts, bytesList, presEach_parts h, Res.nil_cat]
    · rintro r h; obtain ⟨_, _, _, h1, -⟩ := own_named h; cases h1
  | map hk h =>
    rename_i es ss
    refine sums_of (b := lenBytes es.length) ?_ ?_
    · rw [hb]
      simp only [nodeBytes, partsBytes, parts, presEntries_parts h]
      rfl
    · rintro r h; obtain ⟨_, _, _, h1, -⟩ := own_named h; cases h1
  | opaqueFixed v =>
    obtain ⟨b, h⟩ := u32s_good (enumerate_u32 v)
    refine leaf b h rfl ?_
    rintro r h; obtain ⟨_, _, _, h1, -⟩ := own_named h; cases h1
  | opaqueVar v =>
    obtain ⟨b, h⟩ := u32s_good (enumerate_u32 v)
    refine leaf (lenBytes v.length ++ b) ?_ rfl ?_
    · unfold variable_serialize
      simp only [nodeBytes, h, countBytes]
      rfl
    · rintro r h; obtain ⟨_, _, _, h1, -⟩ := own_named h; cases h1
  | signed32 h1 h2 =>
    refine leaf _ rfl rfl ?_
    rintro r h; obtain ⟨_, _, _, h1, -⟩ := own_named h; cases h1
  | unitStruct he =>
    refine leaf _ rfl (by simp [parts]) ?_
    rintro r h; obtain ⟨_, _, _, h1, h2, -⟩ := own_named h; cases h2
  | newtypeStruct he h =>
    refine sums_of (b := []) ?_ ?_
    · rw [hb]
      simp [nodeBytes, partsBytes, parts, he, Res.concat, toBytes, h.complete]
    · rintro r h; obtain ⟨_, _, _, h1, h2, -⟩ := own_named h; cases h2
  | tupleStruct he h =>
    refine sums_of (b := []) ?_ ?_
    · rw [hb]
      simp only [nodeBytes, partsBytes, parts, he, bytesList, presEach_parts h, Res.nil_cat]
    · rintro r h; obtain ⟨_, _, _, h1, h2, -⟩ := own_named h; cases h2
  | struct he h =>
    refine sums_of (b := []) ?_ ?_
    · rw [hb]
      simp only [nodeBytes, partsBytes, parts, he, zipNames_bytes h, Res.nil_cat]
    · rintro r h; obtain ⟨_, _, _, h1, h2, -⟩ := own_named h; cases h2
  | enumUnit he hi =>
    refine sums_enum he ?_
    rw [hb]
    simp [nodeBytes, partsBytes, parts, he, Res.concat]
  | enumNewtype he hi h =>
    refine sums_enum he ?_
    rw [hb]
    simp [nodeBytes, partsBytes, parts, he, hi, Shape.types, Res.concat, toBytes, h.complete]
  | enumTuple he hi h =>
    refine sums_enum he ?_
    rw [hb]
    simp only [nodeBytes, partsBytes, parts, he, hi, Option.map_some, Option.getD_some, Shape.types, bytesList,
      presEach_parts h]
  | enumStruct he hi h =>
    refine sums_enum he ?_
    rw [hb]
    simp only [nodeBytes, partsBytes, parts, he, hi, Option.map_some, Option.getD_some, Shape.types,
      zipNames_bytes h]
  | indexerUnit he hi =>
    refine sums_indexer he (k := fun idx => .tuple (i32AsUsize idx) [.i32 idx]) ?_ ?_
    · rw [hb, ← to_bytes_node]
    · intro x
      refine ⟨be32 x.toUInt32, ?_⟩
      rw [to_bytes_node]
      simp [nodeBytes, bytesList, partsBytes, parts, he, hi, Res.concat, to_bytes_node (.i32 x)]
  | indexer he hi h =>
    rename_i ss
    refine sums_indexer he (k := fun idx => .tuple (i32AsUsize idx) (.i32 idx :: ss)) ?_ ?_
    · rw [hb, ← to_bytes_node]
    · intro x
      refine ⟨be32 x.toUInt32, ?_⟩
      rw [to_bytes_node]
      simp only [nodeBytes, bytesList, List.map_cons, presEach_parts h, partsBytes, parts, he, hi, Option.bind_some,
        Option.getD_some, Res.concat, to_bytes_node (.i32 x)]
  | unionUnit he hi =>
    refine leaf [] rfl (by simp [parts, he]) ?_
    rintro r h
    obtain ⟨_, _, _, h1, h2, ⟨_, h3⟩ | ⟨_, _, h3⟩⟩ := own_named h <;> cases h1 <;> rw [he] at h3 <;> cases h3
  | union he hi h =>
    refine sums_of (b := []) ?_ ?_
    · rw [hb]
      simp only [nodeBytes, partsBytes, parts, he, hi, Option.bind_some, Option.getD_some, bytesList,
        presEach_parts h, Res.nil_cat]
    · rintro r h
      obtain ⟨_, _, _, h1, h2, ⟨_, h3⟩ | ⟨_, _, h3⟩⟩ := own_named h <;> cases h1 <;> rw [he] at h3 <;> cases h3
  | _ =>
    refine leaf _ rfl (by simp [parts]) ?_
    rintro r h
    obtain ⟨_, _, _, h1, -⟩ := own_named h
    cases h1

/-- Parts of values of a type have their types. -/
theorem presEach_mem {env : Env} {ts : List Ty} {vs : List Val} {ss : List SVal} (h : PresEach env ts vs ss) :
    ∀ p ∈ ts.zip vs, ∃ s, Pres env p.1 p.2 s := by
  induction vs generalizing ts ss with
  | nil => cases h; simp
  | cons v vs ih =>
    cases h with
    | cons h1 h2 =>
      intro p hp
      rcases List.mem_cons.1 hp with rfl | hp
      · exact ⟨_, h1⟩
      · exact ih h2 p hp

theorem presAll_mem {env : Env} {t : Ty} {vs : List Val} {ss : List SVal} (h : PresAll env t vs ss) :
    ∀ p ∈ vs.map fun v => (t, v), ∃ s, Pres env p.1 p.2 s := by
  induction vs generalizing ss with
  | nil => simp
  | cons v vs ih =>
    cases h with
    | cons h1 h2 =>
      intro p hp
      rcases List.mem_cons.1 hp with rfl | hp
      · exact ⟨_, h1⟩
      · exact ih h2 p hp

theorem presEntries_mem {env : Env} {k t : Ty} {es : List (Val × Val)} {ss : List (SVal × SVal)}
    (h : PresEntries env k t es ss) :
    ∀ p ∈ es.flatMap fun e => [(k, e.1), (t, e.2)], ∃ s, Pres env p.1 p.2 s := by
  induction es generalizing ss with
  | nil => simp
  | cons e es ih =>
    cases h with
    | cons h1 h2 h3 =>
      intro p hp
      rw [List.flatMap_cons, List.mem_append] at hp
      rcases hp with hp | hp
      · rcases List.mem_cons.1 hp with rfl | hp
        · exact ⟨_, h1⟩
        · rw [List.mem_singleton] at hp
          subst hp
          exact ⟨_, h2⟩
      · exact ih h3 p hp

theorem parts_pres {env : Env} {t : Ty} {v : Val} {s : SVal} (h : Pres env t v s) :
    ∀ p ∈ parts env t v, ∃ s, Pres env p.1 p.2 s := by
  cases h with
  | some h =>
    intro p hp
    simp only [parts, List.mem_singleton] at hp
    subst hp
    exact ⟨_, h⟩
  | vec h => exact presAll_mem h
  | array h => exact presAll_mem h
  | tuple h => exact presEach_mem h
  | map hk h => exact presEntries_mem h
  | newtypeStruct he h =>
    intro p hp
    simp only [parts, he, List.zip_cons_cons, List.zip_nil_left, List.mem_singleton] at hp
    subst hp
    exact ⟨_, h⟩
  | tupleStruct he h => simp only [parts, he]; exact presEach_mem h
  | struct he h => simp only [parts, he]; exact presEach_mem h
  | enumNewtype he hi h =>
    intro p hp
    simp only [parts, he, hi, Option.map_some, Option.getD_some, Shape.types, List.zip_cons_cons, List.zip_nil_left,
      List.mem_singleton] at hp
    subst hp
    exact ⟨_, h⟩
  | enumTuple he hi h =>
    simp only [parts, he, hi, Option.map_some, Option.getD_some, Shape.types]; exact presEach_mem h
  | enumStruct he hi h =>
    simp only [parts, he, hi, Option.map_some, Option.getD_some, Shape.types]; exact presEach_mem h
  | indexer he hi h =>
    simp only [parts, he, hi, Option.bind_some, Option.getD_some]; exact presEach_mem h
  | union he hi h =>
    simp only [parts, he, hi, Option.bind_some, Option.getD_some]; exact presEach_mem h
  | enumUnit he hi => simp [parts, he]
  | indexerUnit he hi => simp [parts, he]
  | unionUnit he hi => simp [parts, he]
  | _ => simp [parts]

theorem zip_small {ts : List Ty} {vs : List Val} {p : Ty × Val} (h : p ∈ ts.zip vs) : sizeOf p.2 < sizeOf vs :=
  List.sizeOf_lt_of_mem (List.of_mem_zip h).2

theorem parts_small {env : Env} {t : Ty} {v : Val} {p : Ty × Val} (h : p ∈ parts env t v) :
    sizeOf p.2 < sizeOf v := by
  unfold parts at h
  split at h
  · rw [List.mem_singleton] at h
    subst h
    simp
  · simp only [List.mem_map] at h
    obtain ⟨x, hx, rfl⟩ := h
    have := List.sizeOf_lt_of_mem hx
    simp
    omega
  · simp only [List.mem_map] at h
    obtain ⟨x, hx, rfl⟩ := h
    have := List.sizeOf_lt_of_mem hx
    simp
    omega
  · have := zip_small h
    simp
    omega
  · simp only [List.mem_flatMap] at h
    obtain ⟨⟨x, y⟩, hx, h⟩ := h
    have := List.sizeOf_lt_of_mem hx
    simp at this h
    rcases h with rfl | rfl <;> simp <;> omega
  · split at h
    · have := zip_small h; simp; omega
    · have := zip_small h; simp; omega
    · have := zip_small h; simp; omega
    · simp at h
  · split at h
    · have := zip_small h; simp; omega
    · have := zip_small h; simp; omega
    · have := zip_small h; simp; omega
    · simp at h
  · simp at h

/-- What cannot be written contains a variant that cannot. -/
theorem fails_contains {env : Env} : ∀ (n : Nat) {t : Ty} {v : Val} {s : SVal}, sizeOf v ≤ n → Pres env t v s →
    ∀ r, toBytes env t v = r → ¬ r.Good → ∃ name i vs, HasVariant env name i vs t v ∧ Refusal env name i vs r
  | 0, _, v, _, hn, _, _, _, _ => by cases v <;> simp at hn
  | n + 1, t, v, s, hn, h, r, hr, hg => by
    rcases (sums h).2 r hr hg with ⟨name, i, vs, rfl, rfl, hq⟩ | hp
    · exact ⟨name, i, vs, .here, hq⟩
    · have := concat_fails hp hg
      rw [List.mem_map] at this
      obtain ⟨p, hm, e⟩ := this
      obtain ⟨s', h'⟩ := parts_pres h p hm
      have hs := parts_small hm
      obtain ⟨name, i, vs, hc, hf⟩ := fails_contains n (by omega) h' r e hg
      exact ⟨name, i, vs, .part hm hc, hf⟩

/-- What contains a variant that cannot be written cannot be. -/
theorem contains_fails {env : Env} {name : String} {i : Nat} {vs : List Val} {t : Ty} {v : Val}
    (hc : HasVariant env name i vs t v) {r : Res Bytes} (hr : Refusal env name i vs r) :
    ∀ {s : SVal}, Pres env t v s → ¬ (toBytes env t v).Good := by
  induction hc with
  | here => exact fun h hg => ((sums h).1.1 hg).1 r ⟨_, _, _, rfl, rfl, hr⟩
  | part hm _ ih =>
    intro s h hg
    obtain ⟨s', h'⟩ := parts_pres h _ hm
    refine ih h' ?_
    have := ((sums h).1.1 hg).2
    unfold partsBytes at this
    rw [good_concat] at this
    exact this _ (List.mem_map.2 ⟨_, hm, rfl⟩)

end Xdr
