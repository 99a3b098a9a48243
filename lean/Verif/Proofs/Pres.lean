import Verif.Model.Types
/-! # `present` as a relation

`Pres env t v s`: the `Serialize` impl of `t` on `v` makes the calls `s`. An inductive version of
`present`, convenient for proofs by induction on values. -/

namespace Xdr

mutual
inductive Pres (env : Env) : Ty → Val → SVal → Prop
  | bool (v) : Pres env .bool (.bool v) (.bool v)
  | i8 (v) : Pres env .i8 (.i8 v) (.i8 v)
  | i16 (v) : Pres env .i16 (.i16 v) (.i16 v)
  | i32 (v) : Pres env .i32 (.i32 v) (.i32 v)
  | i64 (v) : Pres env .i64 (.i64 v) (.i64 v)
  | u8 (v) : Pres env .u8 (.u8 v) (.u8 v)
  | u16 (v) : Pres env .u16 (.u16 v) (.u16 v)
  | u32 (v) : Pres env .u32 (.u32 v) (.u32 v)
  | u64 (v) : Pres env .u64 (.u64 v) (.u64 v)
  | f32 (v) : Pres env .f32 (.f32 v) (.f32 v)
  | f64 (v) : Pres env .f64 (.f64 v) (.f64 v)
  | char (v) : Pres env .char (.char v) (.char v)
  | string (v) : Pres env .string (.str v) (.str v)
  | bytes (v) : Pres env .bytes (.bytes v) (.bytes v)
  | none (t) : Pres env (.option t) .none .none
  | some {t v s} : Pres env t v s → Pres env (.option t) (.some v) (.some s)
  | unit : Pres env .unit .unit .unit
  | vec {t vs ss} : PresAll env t vs ss → Pres env (.vec t) (.seq vs) (.seq (some vs.length) ss)
  | array {t vs ss} : PresAll env t vs ss →
      Pres env (.array vs.length t) (.seq vs) (.tuple vs.length ss)
  | tuple {ts vs ss} : PresEach env ts vs ss →
      Pres env (.tuple ts) (.seq vs) (.tuple ts.length ss)
  | map {k t es ss} : distinctKeys Val.same es = true → PresEntries env k t es ss →
      Pres env (.map k t) (.map es) (.map (some es.length) ss)
  | opaqueFixed (v : Bytes) : Pres env (.opaqueFixed v.length) (.bytes v) (fixed_serialize v)
  | opaqueVar (v) : Pres env .opaqueVar (.bytes v) (variable_serialize v)
  | signed32 {name impl i vars n} : env name = some (.enum vars) → vars[i]? = some (n, .unit) →
      Pres env (.signed32 name impl) (.variant i [])
        (signed32_serialize (impl.as_ref (.variant i [])))
  | unitStruct {name} : env name = some .unitStruct →
      Pres env (.named name) .unit (.unitStruct name)
  | newtypeStruct {name t v s} : env name = some (.newtypeStruct t) → Pres env t v s →
      Pres env (.named name) (.seq [v]) (.newtypeStruct name s)
  | tupleStruct {name ts vs ss} : env name = some (.tupleStruct ts) → PresEach env ts vs ss →
      Pres env (.named name) (.seq vs) (.tupleStruct name ts.length ss)
  | struct {name fs vs ss} : env name = some (.struct fs) → PresEach env (fs.map (·.2)) vs ss →
      Pres env (.named name) (.seq vs) (.struct name fs.length (zipNames fs ss))
  | enumUnit {name vars i vn} : env name = some (.enum vars) → vars[i]? = some (vn, .unit) →
      Pres env (.named name) (.variant i []) (.unitVariant name (UInt32.ofNat i) vn)
  | enumNewtype {name vars i vn t v s} : env name = some (.enum vars) →
      vars[i]? = some (vn, .newtype t) → Pres env t v s →
      Pres env (.named name) (.variant i [v]) (.newtypeVariant name (UInt32.ofNat i) vn s)
  | enumTuple {name vars i vn ts vs ss} : env name = some (.enum vars) →
      vars[i]? = some (vn, .tuple ts) → PresEach env ts vs ss →
      Pres env (.named name) (.variant i vs) (.tupleVariant name (UInt32.ofNat i) vn ts.length ss)
  | enumStruct {name vars i vn fs vs ss} : env name = some (.enum vars) →
      vars[i]? = some (vn, .struct fs) → PresEach env (fs.map (·.2)) vs ss →
      Pres env (.named name) (.variant i vs)
        (.structVariant name (UInt32.ofNat i) vn fs.length (zipNames fs ss))
  | indexerUnit {name vars impl i vn} : env name = some (.indexer vars impl) →
      vars[i]? = some (vn, none) →
      Pres env (.named name) (.variant i [])
        (.ofUser (impl.index i []) fun idx => .tuple (i32AsUsize idx) [.i32 idx])
  | indexer {name vars impl i vn ts vs ss} : env name = some (.indexer vars impl) →
      vars[i]? = some (vn, some ts) → PresEach env ts vs ss →
      Pres env (.named name) (.variant i vs)
        (.ofUser (impl.index i vs) fun idx => .tuple (i32AsUsize idx) (.i32 idx :: ss))
  | unionUnit {name disc vars impl i vn} : env name = some (.union disc vars impl) →
      vars[i]? = some (vn, none) → Pres env (.named name) (.variant i []) (.tuple 2 [])
  | union {name disc vars impl i vn ts vs ss} : env name = some (.union disc vars impl) →
      vars[i]? = some (vn, some ts) → PresEach env ts vs ss →
      Pres env (.named name) (.variant i vs) (.tuple 2 ss)

inductive PresAll (env : Env) : Ty → List Val → List SVal → Prop
  | nil (t) : PresAll env t [] []
  | cons {t v vs s ss} : Pres env t v s → PresAll env t vs ss → PresAll env t (v :: vs) (s :: ss)

inductive PresEach (env : Env) : List Ty → List Val → List SVal → Prop
  | nil : PresEach env [] [] []
  | cons {t ts v vs s ss} : Pres env t v s → PresEach env ts vs ss →
      PresEach env (t :: ts) (v :: vs) (s :: ss)

inductive PresEntries (env : Env) : Ty → Ty → List (Val × Val) → List (SVal × SVal) → Prop
  | nil (k t) : PresEntries env k t [] []
  | cons {k t a b es s s' ss} : Pres env k a s → Pres env t b s' → PresEntries env k t es ss →
      PresEntries env k t ((a, b) :: es) ((s, s') :: ss)
end

theorem presentAll_sound' (env : Env) (t : Ty) (vs : List Val)
    (ih : ∀ v ∈ vs, ∀ t s, present env t v = some s → Pres env t v s) (ss : List SVal)
    (h : presentAll env t vs = some ss) : PresAll env t vs ss := by
  induction vs generalizing ss with
  | nil => simp only [presentAll, Option.some.injEq] at h; subst h; exact .nil t
  | cons v vs ih' =>
    rw [presentAll] at h
    split at h <;> simp only [Option.some.injEq, reduceCtorEq] at h
    subst h
    rename_i h1 h2
    exact .cons (ih v (by simp) _ _ h1) (ih' (fun w hw => ih w (by simp [hw])) _ h2)

theorem presentEach_sound' (env : Env) (ts : List Ty) (vs : List Val)
    (ih : ∀ v ∈ vs, ∀ t s, present env t v = some s → Pres env t v s) (ss : List SVal)
    (h : presentEach env ts vs = some ss) : PresEach env ts vs ss := by
  induction vs generalizing ts ss with
  | nil =>
    cases ts with
    | nil => simp only [presentEach, Option.some.injEq] at h; subst h; exact .nil
    | cons _ _ => simp [presentEach] at h
  | cons v vs ih' =>
    cases ts with
    | nil => simp [presentEach] at h
    | cons t ts =>
      rw [presentEach] at h
      split at h <;> simp only [Option.some.injEq, reduceCtorEq] at h
      subst h
      rename_i h1 h2
      exact .cons (ih v (by simp) _ _ h1) (ih' ts (fun w hw => ih w (by simp [hw])) _ h2)

theorem presentEntries_sound' (env : Env) (k t : Ty) (es : List (Val × Val))
    (ih : ∀ e ∈ es, (∀ t s, present env t e.1 = some s → Pres env t e.1 s) ∧
      (∀ t s, present env t e.2 = some s → Pres env t e.2 s)) (ss : List (SVal × SVal))
    (h : presentEntries env k t es = some ss) : PresEntries env k t es ss := by
  induction es generalizing ss with
  | nil => simp only [presentEntries, Option.some.injEq] at h; subst h; exact .nil k t
  | cons e es ih' =>
    obtain ⟨a, b⟩ := e
    rw [presentEntries] at h
    split at h <;> simp only [Option.some.injEq, reduceCtorEq] at h
    subst h
    rename_i h1 h2 h3
    exact .cons ((ih (a, b) (by simp)).1 _ _ h1) ((ih (a, b) (by simp)).2 _ _ h2)
      (ih' (fun w hw => ih w (by simp [hw])) _ h3)

theorem sizeOf_entry {e : Val × Val} {es : List (Val × Val)} (h : e ∈ es) :
    sizeOf e.1 < sizeOf es ∧ sizeOf e.2 < sizeOf es := by
  have := List.sizeOf_lt_of_mem h
  obtain ⟨a, b⟩ := e
  simp at this ⊢
  omega

theorem present_sound (env : Env) (t : Ty) (v : Val) (s : SVal)
    (h : present env t v = some s) : Pres env t v s := by
  generalize hn : sizeOf v = n
  induction n using Nat.strongRecOn generalizing t v s with
  | ind n ih =>
    subst hn
    have ih1 : ∀ w, sizeOf w < sizeOf v → ∀ t s, present env t w = some s → Pres env t w s :=
      fun w hw t s h => ih _ hw t w s h rfl
    clear ih
    have ihL : ∀ vs : List Val, sizeOf vs < sizeOf v → ∀ w ∈ vs, ∀ t s,
        present env t w = some s → Pres env t w s :=
      fun vs hvs w hw => ih1 w (Nat.lt_trans (List.sizeOf_lt_of_mem hw) hvs)
    have ihE : ∀ es : List (Val × Val), sizeOf es < sizeOf v → ∀ e ∈ es,
        (∀ t s, present env t e.1 = some s → Pres env t e.1 s) ∧
        (∀ t s, present env t e.2 = some s → Pres env t e.2 s) :=
      fun es hes e he => ⟨ih1 _ (Nat.lt_trans (sizeOf_entry he).1 hes),
        ih1 _ (Nat.lt_trans (sizeOf_entry he).2 hes)⟩
    rw [present.eq_def] at h
    split at h
    case h_16 => 
      simp only [Option.map_eq_some_iff] at h
      obtain ⟨s', h1, rfl⟩ := h
      exact .some (ih1 _ (by simp) _ _ h1)
    case h_18 => 
      simp only [Option.map_eq_some_iff] at h
      obtain ⟨s', h1, rfl⟩ := h
      exact .vec (presentAll_sound' env _ _ (ihL _ (by simp)) _ h1)
    case h_19 => 
      split at h <;> simp only [Option.map_eq_some_iff, reduceCtorEq] at h
      obtain ⟨s', h1, rfl⟩ := h
      rename_i he; subst he
      exact .array (presentAll_sound' env _ _ (ihL _ (by simp)) _ h1)
    case h_20 => 
      simp only [Option.map_eq_some_iff] at h
      obtain ⟨s', h1, rfl⟩ := h
      exact .tuple (presentEach_sound' env _ _ (ihL _ (by simp)) _ h1)
    case h_21 => 
      split at h <;> simp only [Option.map_eq_some_iff, reduceCtorEq] at h
      obtain ⟨s', h1, rfl⟩ := h
      exact .map (by assumption) (presentEntries_sound' env _ _ _ (ihE _ (by simp)) _ h1)
    case h_22 => 
      split at h <;> simp only [Option.some.injEq, reduceCtorEq] at h
      rename_i he; subst he; subst h
      exact .opaqueFixed _
    case h_24 => 
      split at h
      · split at h <;> simp only [Option.some.injEq, reduceCtorEq] at h
        subst h
        exact .signed32 (by assumption) (by assumption)
      · simp at h
    case h_25 => 
      split at h
      · simp at h
      rename_i d hd
      split at h
      · simp only [Option.some.injEq] at h; subst h; exact .unitStruct hd
      · simp only [Option.map_eq_some_iff] at h
        obtain ⟨s', h1, rfl⟩ := h
        exact .newtypeStruct hd (ih1 _ (by simp; omega) _ _ h1)
      · simp only [Option.map_eq_some_iff] at h
        obtain ⟨s', h1, rfl⟩ := h
        exact .tupleStruct hd (presentEach_sound' env _ _ (ihL _ (by simp <;> omega)) _ h1)
      · simp only [Option.map_eq_some_iff] at h
        obtain ⟨s', h1, rfl⟩ := h
        exact .struct hd (presentEach_sound' env _ _ (ihL _ (by simp <;> omega)) _ h1)
      · split at h
        · simp at h
        rename_i hv
        split at h
        · simp only [Option.some.injEq] at h; subst h; exact .enumUnit hd hv
        · simp only [Option.map_eq_some_iff] at h
          obtain ⟨s', h1, rfl⟩ := h
          exact .enumNewtype hd hv (ih1 _ (by simp; omega) _ _ h1)
        · simp only [Option.map_eq_some_iff] at h
          obtain ⟨s', h1, rfl⟩ := h
          exact .enumTuple hd hv (presentEach_sound' env _ _ (ihL _ (by simp <;> omega)) _ h1)
        · simp only [Option.map_eq_some_iff] at h
          obtain ⟨s', h1, rfl⟩ := h
          exact .enumStruct hd hv (presentEach_sound' env _ _ (ihL _ (by simp <;> omega)) _ h1)
        · simp at h
      · split at h
        · simp at h
        · rename_i hv
          split at h <;> simp only [Option.some.injEq, reduceCtorEq] at h
          rename_i he
          simp only [List.isEmpty_iff] at he
          subst he; subst h
          exact .indexerUnit hd hv
        · rename_i hv
          simp only [Option.map_eq_some_iff] at h
          obtain ⟨s', h1, rfl⟩ := h
          exact .indexer hd hv (presentEach_sound' env _ _ (ihL _ (by simp <;> omega)) _ h1)
      · split at h
        · simp at h
        · rename_i hv
          split at h <;> simp only [Option.some.injEq, reduceCtorEq] at h
          rename_i he
          simp only [List.isEmpty_iff] at he
          subst he; subst h
          exact .unionUnit hd hv
        · rename_i hv
          simp only [Option.map_eq_some_iff] at h
          obtain ⟨s', h1, rfl⟩ := h
          exact .union hd hv (presentEach_sound' env _ _ (ihL _ (by simp <;> omega)) _ h1)
      · simp at h
    case h_26 => simp at h
    all_goals (simp only [Option.some.injEq] at h; subst h; constructor)

mutual
theorem Pres.complete {env : Env} {t : Ty} {v : Val} {s : SVal} :
    Pres env t v s → present env t v = some s
  | .bool _ | .i8 _ | .i16 _ | .i32 _ | .i64 _ | .u8 _ | .u16 _ | .u32 _ | .u64 _ | .f32 _ | .f64 _
  | .char _ | .string _ | .bytes _ | .none _ | .unit | .opaqueVar _ => by simp [present]
  | .opaqueFixed v => by simp [present]
  | .some h => by simp [present, h.complete]
  | .vec h => by simp [present, h.complete]
  | .array h => by simp [present, h.complete]
  | .tuple h => by simp [present, h.complete]
  | .map hd h => by simp [present, h.complete, hd]
  | .signed32 he hv => by simp [present, he, hv]
  | .unitStruct he => by simp [present, he]
  | .newtypeStruct he h => by simp [present, he, h.complete]
  | .tupleStruct he h => by simp [present, he, h.complete]
  | .struct he h => by simp [present, he, h.complete]
  | .enumUnit he hv => by simp [present, he, hv]
  | .enumNewtype he hv h => by simp [present, he, hv, h.complete]
  | .enumTuple he hv h => by simp [present, he, hv, h.complete]
  | .enumStruct he hv h => by simp [present, he, hv, h.complete]
  | .indexerUnit he hv => by simp [present, he, hv]
  | .indexer he hv h => by simp [present, he, hv, h.complete]
  | .unionUnit he hv => by simp [present, he, hv]
  | .union he hv h => by simp [present, he, hv, h.complete]

theorem PresAll.complete {env : Env} {t : Ty} {vs : List Val} {ss : List SVal} :
    PresAll env t vs ss → presentAll env t vs = some ss
  | .nil _ => by simp [presentAll]
  | .cons h hs => by simp [presentAll, h.complete, hs.complete]

theorem PresEach.complete {env : Env} {ts : List Ty} {vs : List Val} {ss : List SVal} :
    PresEach env ts vs ss → presentEach env ts vs = some ss
  | .nil => by simp [presentEach]
  | .cons h hs => by simp [presentEach, h.complete, hs.complete]

theorem PresEntries.complete {env : Env} {k t : Ty} {es : List (Val × Val)}
    {ss : List (SVal × SVal)} : PresEntries env k t es ss → presentEntries env k t es = some ss
  | .nil _ _ => by simp [presentEntries]
  | .cons h h' hs => by simp [presentEntries, h.complete, h'.complete, hs.complete]
end

end Xdr
