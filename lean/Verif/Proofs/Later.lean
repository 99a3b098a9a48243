import Verif.Spec.Later
import Verif.Proofs.RoundTrip
/-! # Later versions of types, and larger stacks -/

namespace Xdr

/-! ## Decoders that agree where the first one has an answer -/

/-- An outcome that is kept: everything but an exhausted stack and, unless `full`, panics and custom
errors. -/
def Res.Settled {α : Type} (full : Bool) : Res α → Prop
  | .ok _ => True
  | .err (.custom _) => full = true
  | .err _ => True
  | .panic _ => full = true
  | .depth => False

/-- The second decoder does what the first one does whenever that is settled. -/
def Keeps {α : Type} (full : Bool) (d d' : De α) : Prop :=
  ∀ inp, (d inp).Settled full → d' inp = d inp

section
variable {α β : Type} {full : Bool}

theorem Keeps.refl (d : De α) : Keeps full d d := fun _ _ => rfl

theorem Keeps.depth (d' : De α) : Keeps full M.depth d' := fun _ h => h.elim

theorem Keeps.panic (p : PanicSite) (d' : De α) : Keeps false (M.panic p) d' := fun _ h => by
  simp [Res.Settled] at h

theorem Keeps.custom (m : String) (d' : De α) : Keeps false (M.fail (.custom m)) d' := fun _ h => by
  simp [Res.Settled] at h

theorem Keeps.bind {d d' : De α} {k k' : α → De β} (hd : Keeps full d d')
    (hk : ∀ a, Keeps full (k a) (k' a)) : Keeps full (d >>= k) (d' >>= k') := by
  intro inp hs
  have hd' := hd inp
  cases hr : d inp with
  | ok p =>
    obtain ⟨a, rest⟩ := p
    rw [M.bind_ok hr] at hs ⊢
    rw [M.bind_ok ((hd' (by rw [hr]; trivial)).trans hr)]
    exact hk a rest hs
  | err e =>
    rw [M.bind_err hr] at hs ⊢
    exact M.bind_err ((hd' (by rw [hr]; cases e <;> exact hs)).trans hr)
  | panic p =>
    rw [M.bind_panic hr] at hs ⊢
    exact M.bind_panic ((hd' (by rw [hr]; exact hs)).trans hr)
  | depth =>
    rw [M.bind_run, hr] at hs
    exact hs.elim

theorem Keeps.after {k k' : α → De β} (d : De α) (hk : ∀ a, Keeps full (k a) (k' a)) :
    Keeps full (d >>= k) (d >>= k') := .bind (.refl d) hk

theorem Keeps.map {d d' : De α} (hd : Keeps full d d') (f : α → β) :
    Keeps full (d >>= fun a => Pure.pure (f a)) (d' >>= fun a => Pure.pure (f a)) :=
  .bind hd fun _ => .refl _

theorem Keeps.next {d d' : De α} (hd : Keeps full d d') (s : Seq) :
    Keeps full (s.next_element d) (s.next_element d') := by
  unfold Seq.next_element
  split
  · exact .refl _
  · exact hd.map _

theorem Keeps.next_key {d d' : De α} (hd : Keeps full d d') (s : MapAcc) :
    Keeps full (s.next_key d) (s.next_key d') := by
  unfold MapAcc.next_key
  split
  · exact .refl _
  · exact hd.map _

end

section
variable {full : Bool}

theorem keeps_visitEach {γ : Type} (exp exp' : String) (f f' : γ → De Val) :
    ∀ (ts : List γ), (∀ t ∈ ts, Keeps full (f t) (f' t)) → ∀ (i n : Nat), ts.length ≤ n →
    Keeps full (visitEach exp (ts.map f) i ⟨n⟩) (visitEach exp' (ts.map f') i ⟨n⟩)
  | [], _, _, _, _ => .refl _
  | t :: ts, h, i, n, hn => by
    cases n with
    | zero => simp at hn
    | succ n =>
      simp only [List.map_cons, visitEach, Seq.next_element, Nat.add_one_ne_zero, if_false,
        M.bind_assoc', M.pure_bind', Nat.add_sub_cancel]
      refine .bind (h t (by simp)) fun v => ?_
      exact (keeps_visitEach exp exp' f f' ts (fun t ht => h t (by simp [ht])) (i + 1) n
        (by simpa using hn)).map _

theorem keeps_visitUnwrap (f f' : Ty → De Val) (h : ∀ t, Keeps full (f t) (f' t)) :
    ∀ (ts : List Ty) (s : Seq),
    Keeps full (visitUnwrap (ts.map f) s) (visitUnwrap (ts.map f') s)
  | [], _ => .refl _
  | t :: ts, s => by
    simp only [List.map_cons, visitUnwrap]
    refine .bind (.next (h t) s) fun p => ?_
    obtain ⟨o, s'⟩ := p
    cases o with
    | none => exact .refl _
    | some v => exact (keeps_visitUnwrap f f' h ts s').map _

theorem keeps_visitVec {d d' : De Val} (h : Keeps full d d') : ∀ (n : Nat) (s : Seq),
    Keeps full (visitVec d n s) (visitVec d' n s)
  | 0, _ => .refl _
  | n + 1, s => by
    unfold visitVec
    refine .bind (.next h s) fun p => ?_
    obtain ⟨o, s'⟩ := p
    cases o with
    | none => exact .refl _
    | some v => exact (keeps_visitVec h n s').map _

theorem keeps_visitMap {dk dk' dv dv' : De Val} (hk : Keeps full dk dk') (hv : Keeps full dv dv') :
    ∀ (n : Nat) (s : MapAcc) (es : List (Val × Val)),
    Keeps full (visitMap dk dv n s es) (visitMap dk' dv' n s es)
  | 0, _, _ => .refl _
  | n + 1, s, es => by
    unfold visitMap
    refine .bind (.next_key hk s) fun p => ?_
    obtain ⟨o, s'⟩ := p
    cases o with
    | none => exact .refl _
    | some v => exact .bind hv fun w => keeps_visitMap hk hv n s' _

/-! ## Definitions -/

/-- The fields of a struct or variant, one after the other. -/
def readFields (field : Ty → De Val) (ts : List Ty) : De (List Val) :=
  visitEach "" (ts.map field) 0 ⟨ts.length⟩

theorem visitEach_text (exp exp' : String) : ∀ (ds : List (De Val)) (i j n : Nat), ds.length ≤ n →
    visitEach exp ds i ⟨n⟩ = visitEach exp' ds j ⟨n⟩
  | [], _, _, _, _ => rfl
  | d :: ds, i, j, n, hn => by
    cases n with
    | zero => simp at hn
    | succ n =>
      simp only [visitEach, Seq.next_element, Nat.add_one_ne_zero, if_false,
        M.bind_assoc', M.pure_bind', Nat.add_sub_cancel]
      rw [visitEach_text exp exp' ds (i + 1) (j + 1) n (by simpa using hn)]

theorem readFields_one (field : Ty → De Val) (t : Ty) :
    readFields field [t] = (field t >>= fun v => Pure.pure [v]) := by
  simp only [readFields, List.map_cons, List.map_nil, visitEach, Seq.next_element, List.length_cons,
    List.length_nil, Nat.zero_add, Nat.add_one_ne_zero, if_false, M.bind_assoc', M.pure_bind']

theorem keeps_readFields {field field' : Ty → De Val} (hf : ∀ t, Keeps full (field t) (field' t))
    (ts : List Ty) : Keeps full (readFields field ts) (readFields field' ts) :=
  keeps_visitEach _ _ _ _ ts (fun t _ => hf t) _ _ (Nat.le_refl _)

theorem deDef_fields (field : Ty → De Val) (name : String) {d : Def} {ts : List Ty}
    (h : d.fields = some ts) :
    deDef field name d = (readFields field ts >>= fun vs => Pure.pure (.seq vs)) := by
  cases d with
  | newtypeStruct t =>
    simp only [Def.fields, Option.some.injEq] at h
    subst h
    rw [readFields_one, M.bind_assoc']
    rfl
  | tupleStruct us =>
    simp only [Def.fields, Option.some.injEq] at h
    subst h
    have := visitEach_text s!"tuple struct {name} with {us.length} elements" "" (us.map field) 0 0
      us.length (by simp)
    exact congrArg (· >>= fun vs => Pure.pure (Val.seq vs)) this
  | struct fs =>
    simp only [Def.fields, Option.some.injEq] at h
    subst h
    have := visitEach_text s!"struct {name} with {fs.length} elements" ""
      (fs.map fun f => field f.2) 0 0 (fs.map (·.1)).length (by simp)
    have h2 : readFields field (fs.map (·.2)) =
        visitEach "" (fs.map fun f => field f.2) 0 ⟨(fs.map (·.1)).length⟩ := by
      simp only [readFields, List.map_map, List.length_map]
      rfl
    rw [h2]
    exact congrArg (· >>= fun vs => Pure.pure (Val.seq vs)) this
  | _ => simp [Def.fields] at h

/-- What the decoder of a derived enum does for a variant. -/
def readVariant (field : Ty → De Val) (i : Nat) (s : Shape) : De Val :=
  match s.fields with
  | none => Pure.pure (.variant i [])
  | some ts => readFields field ts >>= fun vs => Pure.pure (.variant i vs)

theorem deDef_enum (field : Ty → De Val) (name : String) (vars : List (String × Shape)) :
    deDef field name (.enum vars) = (Enum_variant_seed (variantIndex vars.length) >>= fun i =>
      match vars[i]? with
      | none => M.panic .illTyped
      | some v => readVariant field i v.2) := by
  refine congrArg (Enum_variant_seed (variantIndex vars.length) >>= ·) (funext fun i => ?_)
  cases vars[i]? with
  | none => rfl
  | some v =>
    obtain ⟨vn, s⟩ := v
    cases s with
    | unit => rfl
    | newtype t =>
      simp only [readVariant, Shape.fields, readFields_one, M.bind_assoc']
      rfl
    | tuple ts =>
      have := visitEach_text s!"tuple variant {name}::{vn} with {ts.length} elements" ""
        (ts.map field) 0 0 ts.length (by simp)
      exact congrArg (· >>= fun vs => Pure.pure (Val.variant i vs)) this
    | struct fs =>
      have := visitEach_text s!"struct variant {name}::{vn} with {fs.length} elements" ""
        (fs.map fun f => field f.2) 0 0 (fs.map (·.1)).length (by simp)
      have h2 : readFields field (fs.map (·.2)) =
          visitEach "" (fs.map fun f => field f.2) 0 ⟨(fs.map (·.1)).length⟩ := by
        simp only [readFields, List.map_map, List.length_map]
        rfl
      simp only [readVariant, Shape.fields]
      rw [h2]
      exact congrArg (· >>= fun vs => Pure.pure (Val.variant i vs)) this

theorem keeps_readVariant {field field' : Ty → De Val} (hf : ∀ t, Keeps full (field t) (field' t))
    (i : Nat) {s s' : Shape} (h : s'.fields = s.fields) :
    Keeps full (readVariant field i s) (readVariant field' i s') := by
  unfold readVariant
  rw [h]
  cases s.fields with
  | none => exact .refl _
  | some ts => exact (keeps_readFields hf ts).map _

theorem keeps_deDef {field field' : Ty → De Val} (hf : ∀ t, Keeps full (field t) (field' t))
    (name : String) (d : Def) : Keeps full (deDef field name d) (deDef field' name d) := by
  cases hfs : d.fields with
  | some ts =>
    rw [deDef_fields field name hfs, deDef_fields field' name hfs]
    exact (keeps_readFields hf ts).map _
  | none =>
    cases d with
    | unitStruct => exact .refl _
    | newtypeStruct t => simp [Def.fields] at hfs
    | tupleStruct us => simp [Def.fields] at hfs
    | struct fs => simp [Def.fields] at hfs
    | enum vars =>
      rw [deDef_enum, deDef_enum]
      refine .after _ fun i => ?_
      cases vars[i]? with
      | none => exact .refl _
      | some v => exact keeps_readVariant hf i rfl
    | indexer vars impl =>
      unfold deDef deserialize_tuple visitIndexer
      refine .after _ fun p => ?_
      obtain ⟨o, s⟩ := p
      cases o with
      | none => exact .refl _
      | some k =>
        dsimp only
        cases impl.name_by_index k with
        | ok nm =>
          dsimp only
          cases findVariant nm vars 0 with
          | none => exact .refl _
          | some q =>
            obtain ⟨i, o⟩ := q
            cases o with
            | none => exact .refl _
            | some ts => exact (keeps_visitUnwrap _ _ hf ts s).map _
        | _ => exact .refl _
    | union disc vars impl =>
      unfold deDef deserialize_tuple visitUnion
      refine .bind (.next (hf disc) _) fun p => ?_
      obtain ⟨o, s⟩ := p
      cases o with
      | none => exact .refl _
      | some k =>
        dsimp only
        cases impl.name_by_value k with
        | ok nm =>
          dsimp only
          cases findVariant nm vars 0 with
          | none => exact .refl _
          | some q =>
            obtain ⟨i, o⟩ := q
            cases o with
            | none => exact .refl _
            | some ts =>
              cases ts with
              | nil => exact .refl _
              | cons t ts => exact (keeps_visitUnwrap _ _ hf ts s).map _
        | _ => exact .refl _

theorem findVariant_more {γ : Type} (name : String) (more : List (String × γ)) :
    ∀ (vs : List (String × γ)) (i : Nat) (q : Nat × γ), findVariant name vs i = some q →
    findVariant name (vs ++ more) i = some q
  | [], _, _, h => by simp [findVariant] at h
  | (n, a) :: vs, i, q, h => by
    simp only [List.cons_append, findVariant] at h ⊢
    split
    · next hn => rwa [if_pos hn] at h
    · next hn =>
      rw [if_neg hn] at h
      exact findVariant_more name more vs _ q h

theorem keeps_later {field field' : Ty → De Val} (hf : ∀ t, Keeps false (field t) (field' t))
    (name : String) {d d' : Def} (h : d.Later d') :
    Keeps false (deDef field name d) (deDef field' name d') := by
  cases h with
  | same => exact keeps_deDef hf name d
  | struct h h' =>
    rw [deDef_fields field name h, deDef_fields field' name h']
    exact (keeps_readFields hf _).map _
  | @enum vs vs' h =>
    rw [deDef_enum, deDef_enum]
    unfold Enum_variant_seed
    rw [M.bind_assoc', M.bind_assoc']
    refine .after _ fun k => ?_
    split
    · exact .refl _
    · generalize k.toInt.toNat = i
      cases hi : vs[i]? with
      | none =>
        rw [List.getElem?_eq_none_iff] at hi
        unfold variantIndex
        rw [if_neg (by omega)]
        exact .custom _ _
      | some v =>
        obtain ⟨v', hv', hs⟩ := h i v hi
        obtain ⟨hi1, _⟩ := List.getElem?_eq_some_iff.mp hi
        obtain ⟨hi2, _⟩ := List.getElem?_eq_some_iff.mp hv'
        unfold variantIndex
        rw [if_pos hi1, if_pos hi2, M.pure_bind', M.pure_bind', hi, hv']
        exact keeps_readVariant hf i hs
  | @indexer vs more impl impl' _ h =>
    unfold deDef deserialize_tuple visitIndexer
    refine .after _ fun p => ?_
    obtain ⟨o, s⟩ := p
    cases o with
    | none => exact .refl _
    | some k =>
      dsimp only
      cases hk : impl.name_by_index k with
      | ok nm =>
        rw [h k nm hk]
        dsimp only
        cases hv : findVariant nm vs 0 with
        | none => exact .panic _ _
        | some q =>
          rw [findVariant_more nm more vs 0 q hv]
          obtain ⟨i, o⟩ := q
          cases o with
          | none => exact .refl _
          | some ts => exact (keeps_visitUnwrap _ _ hf ts s).map _
      | err e => exact .custom _ _
      | panic p => exact .panic _ _
      | depth => exact .depth _
  | @union disc vs more impl impl' h =>
    unfold deDef deserialize_tuple visitUnion
    refine .bind (.next (hf disc) _) fun p => ?_
    obtain ⟨o, s⟩ := p
    cases o with
    | none => exact .refl _
    | some k =>
      dsimp only
      cases hk : impl.name_by_value k with
      | ok nm =>
        rw [h k nm hk]
        dsimp only
        cases hv : findVariant nm vs 0 with
        | none => exact .panic _ _
        | some q =>
          rw [findVariant_more nm more vs 0 q hv]
          obtain ⟨i, o⟩ := q
          cases o with
          | none => exact .refl _
          | some ts =>
            cases ts with
            | nil => exact .refl _
            | cons t ts => exact (keeps_visitUnwrap _ _ hf ts s).map _
      | err e => exact .custom _ _
      | panic p => exact .panic _ _
      | depth => exact .depth _

/-! ## Types -/

theorem keeps_deTy {env env' : Env}
    (henv : ∀ name d, env name = some d → ∃ d', env' name = some d' ∧
      ∀ field field' : Ty → De Val, (∀ t, Keeps full (field t) (field' t)) →
        Keeps full (deDef field name d) (deDef field' name d'))
    (hnone : full = true → ∀ name, env name = none → env' name = none) :
    ∀ (n n' : Nat), n ≤ n' → ∀ t, Keeps full (deTy env n t) (deTy env' n' t) := by
  intro n
  induction n with
  | zero => exact fun _ _ _ => .depth _
  | succ n ih =>
    intro n' hn t
    cases n' with
    | zero => omega
    | succ n' =>
      have ih := ih n' (by omega)
      cases t with
      | option t =>
        refine .after _ fun c => ?_
        split
        · exact .refl _
        · exact (ih t).map _
      | vec t => exact .map (.after _ fun c => keeps_visitVec (ih t) _ _) _
      | array len t =>
        refine .map ?_ _
        have := keeps_visitEach (full := full) s!"an array of length {len}"
          s!"an array of length {len}" (fun _ : Unit => deTy env n t) (fun _ : Unit => deTy env' n' t)
          (List.replicate len ()) (fun _ _ => ih t) 0 len (by simp)
        rw [List.map_replicate, List.map_replicate] at this
        exact this
      | tuple ts => exact .map (keeps_visitEach _ _ _ _ ts (fun t _ => ih t) _ _ (Nat.le_refl _)) _
      | map k v => exact .map (.after _ fun c => keeps_visitMap (ih k) (ih v) _ _ _) _
      | named name =>
        simp only [deTy]
        cases he : env name with
        | none =>
          cases hfull : full with
          | true => rw [hnone hfull name he]; exact .refl _
          | false => exact .panic _ _
        | some d =>
          obtain ⟨d', he', hd⟩ := henv name d he
          rw [he']
          exact hd _ _ ih
      | _ => exact .refl _

theorem keeps_stack (env : Env) {n n' : Nat} (hn : n ≤ n') (t : Ty) :
    Keeps true (deTy env n t) (deTy env n' t) :=
  keeps_deTy (fun name d he => ⟨d, he, fun _ _ hf => keeps_deDef hf name d⟩) (fun _ _ h => h) _ _ hn t

theorem keeps_env {env env' : Env} (h : Later env env') {n n' : Nat} (hn : n ≤ n') (t : Ty) :
    Keeps false (deTy env n t) (deTy env' n' t) :=
  keeps_deTy (fun name d he => by
    obtain ⟨d', he', hd⟩ := h name d he
    exact ⟨d', he', fun _ _ hf => keeps_later hf name hd⟩) (fun h => by simp at h) _ _ hn t

end

/-! ## Writing -/

/-- A struct's calls, from those for its fields. -/
theorem pres_ofFields {env : Env} {name : String} {d : Def} {ts : List Ty} {vs : List Val}
    {ss : List SVal} (he : env name = some d) (hf : d.fields = some ts) (h : PresEach env ts vs ss) :
    ∃ s, Pres env (.named name) (.seq vs) s ∧ to_bytes s = bytesList ss := by
  cases d with
  | newtypeStruct t =>
    simp only [Def.fields, Option.some.injEq] at hf
    subst hf
    cases h with
    | cons h1 h2 =>
      cases h2
      refine ⟨_, .newtypeStruct he h1, ?_⟩
      rw [to_bytes_node]
      simp [nodeBytes]
  | tupleStruct us =>
    simp only [Def.fields, Option.some.injEq] at hf
    subst hf
    exact ⟨_, .tupleStruct he h, by rw [to_bytes_node]; rfl⟩
  | struct fs =>
    simp only [Def.fields, Option.some.injEq] at hf
    subst hf
    refine ⟨_, .struct he h, ?_⟩
    rw [to_bytes_node]
    exact bytesFields_zip fs ss (by simpa using h.length.2)
  | _ => simp [Def.fields] at hf

/-- The calls for a variant of a derived enum, from those for its fields. -/
theorem pres_ofVariant {env : Env} {name : String} {vars : List (String × Shape)} {i : Nat}
    {v : String × Shape} {ts : List Ty} {vs : List Val} {ss : List SVal}
    (he : env name = some (.enum vars)) (hi : vars[i]? = some v) (hf : v.2.fields = some ts)
    (h : PresEach env ts vs ss) :
    ∃ s, Pres env (.named name) (.variant i vs) s ∧
      to_bytes s = (indexBytes (UInt32.ofNat i)).cat (bytesList ss) := by
  obtain ⟨vn, sh⟩ := v
  cases sh with
  | unit => simp [Shape.fields] at hf
  | newtype t =>
    simp only [Shape.fields, Option.some.injEq] at hf
    subst hf
    cases h with
    | cons h1 h2 =>
      cases h2
      refine ⟨_, .enumNewtype he hi h1, ?_⟩
      rw [to_bytes_node]
      simp [nodeBytes]
  | tuple us =>
    simp only [Shape.fields, Option.some.injEq] at hf
    subst hf
    exact ⟨_, .enumTuple he hi h, by rw [to_bytes_node]; rfl⟩
  | struct fs =>
    simp only [Shape.fields, Option.some.injEq] at hf
    subst hf
    refine ⟨_, .enumStruct he hi h, ?_⟩
    rw [to_bytes_node]
    simp only [nodeBytes]
    rw [bytesFields_zip fs ss (by simpa using h.length.2)]

/-- The calls for the fields of a struct, from its own. -/
theorem pres_fields {env : Env} {name : String} {d : Def} {ts : List Ty} {vs : List Val} {s : SVal}
    (he : env name = some d) (hf : d.fields = some ts) (h : Pres env (.named name) (.seq vs) s) :
    ∃ ss, PresEach env ts vs ss ∧ to_bytes s = bytesList ss := by
  rw [to_bytes_node]
  cases h with
  | newtypeStruct he' h =>
    rw [he, Option.some.injEq] at he'
    subst he'
    simp only [Def.fields, Option.some.injEq] at hf
    subst hf
    exact ⟨_, .cons h .nil, by simp [nodeBytes]⟩
  | tupleStruct he' h =>
    rw [he, Option.some.injEq] at he'
    subst he'
    simp only [Def.fields, Option.some.injEq] at hf
    subst hf
    exact ⟨_, h, rfl⟩
  | struct he' h =>
    rw [he, Option.some.injEq] at he'
    subst he'
    simp only [Def.fields, Option.some.injEq] at hf
    subst hf
    exact ⟨_, h, bytesFields_zip _ _ (by simpa using h.length.2)⟩

theorem fits_fields {env : Env} {name : String} {d : Def} {ts : List Ty} {vs : List Val}
    (he : env name = some d) (hf : d.fields = some ts) (hlen : vs.length = ts.length) :
    Fits env (.named name) (.seq vs) ↔ FitsEach env ts vs := by
  cases d with
  | newtypeStruct t =>
    simp only [Def.fields, Option.some.injEq] at hf
    subst hf
    match vs, hlen with
    | [v], _ => simp [Fits, FitsEach, he]
  | tupleStruct us =>
    simp only [Def.fields, Option.some.injEq] at hf
    subst hf
    simp [Fits, he]
  | struct fs =>
    simp only [Def.fields, Option.some.injEq] at hf
    subst hf
    simp [Fits, he]
  | _ => simp [Def.fields] at hf

theorem PresEach.split {env : Env} {us : List Ty} {ws : List Val} : ∀ {ts : List Ty} {vs : List Val}
    {ss : List SVal}, vs.length = ts.length → PresEach env (ts ++ us) (vs ++ ws) ss →
    ∃ s₁ s₂, ss = s₁ ++ s₂ ∧ PresEach env ts vs s₁ ∧ PresEach env us ws s₂
  | [], [], ss, _, h => ⟨[], ss, rfl, .nil, h⟩
  | [], _ :: _, _, hl, _ => by simp at hl
  | _ :: _, [], _, hl, _ => by simp at hl
  | t :: ts, v :: vs, _, hl, .cons h hs => by
    obtain ⟨s₁, s₂, rfl, h1, h2⟩ := hs.split (by simpa using hl)
    exact ⟨_ :: s₁, s₂, rfl, .cons h h1, h2⟩

theorem FitsEach.split {env : Env} {us : List Ty} {ws : List Val} : ∀ {ts : List Ty} {vs : List Val},
    vs.length = ts.length → FitsEach env (ts ++ us) (vs ++ ws) → FitsEach env ts vs
  | [], [], _, _ => by simp [FitsEach]
  | [], _ :: _, hl, _ => by simp at hl
  | _ :: _, [], hl, _ => by simp at hl
  | t :: ts, v :: vs, hl, h => by
    simp only [List.cons_append, FitsEach] at h ⊢
    exact ⟨h.1, FitsEach.split (by simpa using hl) h.2⟩

theorem bytesList_append : ∀ (a b : List SVal),
    bytesList (a ++ b) = (bytesList a).cat (bytesList b)
  | [], b => by simp
  | s :: a, b => by
    rw [List.cons_append, bytesList_cons, bytesList_cons, bytesList_append a b, Res.cat_assoc]

theorem depthList_append : ∀ (a b : List Val), depthList a ≤ depthList (a ++ b)
  | [], b => by simp [depthList]
  | v :: a, b => by
    have := depthList_append a b
    simp only [List.cons_append, depthList]
    omega

theorem Def.Later.fields {d d' : Def} (h : d.Later d') {ts : List Ty} (hf : d.fields = some ts) :
    d'.fields = some ts := by
  cases h with
  | same => exact hf
  | struct h1 h2 => rw [h1] at hf; rw [h2, hf]
  | enum _ => simp [Def.fields] at hf
  | indexer _ _ => simp [Def.fields] at hf
  | union _ => simp [Def.fields] at hf

theorem Def.Later.variants {vs : List (String × Shape)} {d' : Def} (h : (Def.enum vs).Later d') :
    ∃ vs', d' = .enum vs' ∧ ∀ (i : Nat) (v : String × Shape), vs[i]? = some v →
      ∃ v', vs'[i]? = some v' ∧ v'.2.fields = v.2.fields := by
  cases h with
  | same => exact ⟨vs, rfl, fun i v hv => ⟨v, hv, rfl⟩⟩
  | struct h1 h2 => simp [Def.fields] at h1
  | enum h => exact ⟨_, rfl, h⟩

theorem Shape.fields_none {s : Shape} (h : s.fields = none) : s = .unit := by
  cases s <;> simp [Shape.fields] at h ⊢

theorem ofUser_bytes {r : Res Int32} {k k' : Int32 → SVal}
    (h : ∀ i, to_bytes (k i) = to_bytes (k' i)) :
    to_bytes (SVal.ofUser r k) = to_bytes (SVal.ofUser r k') := by
  unfold SVal.ofUser
  cases r with
  | ok i => exact h i
  | _ => rfl

mutual
theorem Pres.later {env env' : Env} (hl : Later env env') {t : Ty} {v : Val} {s : SVal} :
    Pres env t v s → ∃ s', Pres env' t v s' ∧ to_bytes s' = to_bytes s
  | .bool _ => ⟨_, .bool _, rfl⟩
  | .i8 _ => ⟨_, .i8 _, rfl⟩
  | .i16 _ => ⟨_, .i16 _, rfl⟩
  | .i32 _ => ⟨_, .i32 _, rfl⟩
  | .i64 _ => ⟨_, .i64 _, rfl⟩
  | .u8 _ => ⟨_, .u8 _, rfl⟩
  | .u16 _ => ⟨_, .u16 _, rfl⟩
  | .u32 _ => ⟨_, .u32 _, rfl⟩
  | .u64 _ => ⟨_, .u64 _, rfl⟩
  | .f32 _ => ⟨_, .f32 _, rfl⟩
  | .f64 _ => ⟨_, .f64 _, rfl⟩
  | .char _ => ⟨_, .char _, rfl⟩
  | .string _ => ⟨_, .string _, rfl⟩
  | .bytes _ => ⟨_, .bytes _, rfl⟩
  | .none _ => ⟨_, .none _, rfl⟩
  | .unit => ⟨_, .unit, rfl⟩
  | .opaqueVar _ => ⟨_, .opaqueVar _, rfl⟩
  | .opaqueFixed v => ⟨_, .opaqueFixed v, rfl⟩
  | .some h => by
    obtain ⟨s', h', hb⟩ := h.later hl
    refine ⟨_, .some h', ?_⟩
    rw [to_bytes_node, to_bytes_node (.some _)]
    simp only [nodeBytes, hb]
  | .vec h => by
    obtain ⟨s', h', hb⟩ := h.later hl
    refine ⟨_, .vec h', ?_⟩
    rw [to_bytes_node, to_bytes_node (.seq _ _)]
    simp only [nodeBytes, hb]
  | .array h => by
    obtain ⟨s', h', hb⟩ := h.later hl
    refine ⟨_, .array h', ?_⟩
    rw [to_bytes_node, to_bytes_node (.tuple _ _)]
    simp only [nodeBytes, hb]
  | .tuple h => by
    obtain ⟨s', h', hb⟩ := h.later hl
    refine ⟨_, .tuple h', ?_⟩
    rw [to_bytes_node, to_bytes_node (.tuple _ _)]
    simp only [nodeBytes, hb]
  | .map hd h => by
    obtain ⟨s', h', hb⟩ := h.later hl
    refine ⟨_, .map hd h', ?_⟩
    rw [to_bytes_node, to_bytes_node (.map _ _)]
    simp only [nodeBytes, hb]
  | .signed32 he hv => by
    obtain ⟨d', he', hd⟩ := hl _ _ he
    obtain ⟨vs', rfl, hvs⟩ := hd.variants
    obtain ⟨⟨vn', sh'⟩, hv', hs⟩ := hvs _ _ hv
    cases Shape.fields_none hs
    exact ⟨_, .signed32 he' hv', rfl⟩
  | .unitStruct he => by
    obtain ⟨d', he', hd⟩ := hl _ _ he
    cases hd with
    | same => exact ⟨_, .unitStruct he', rfl⟩
    | struct h1 h2 => simp [Def.fields] at h1
  | .newtypeStruct he h => by
    obtain ⟨d', he', hd⟩ := hl _ _ he
    obtain ⟨s', h', hb⟩ := h.later hl
    obtain ⟨r, hr, hrb⟩ := pres_ofFields he' (hd.fields rfl) (.cons h' .nil)
    refine ⟨r, hr, ?_⟩
    rw [hrb, to_bytes_node (.newtypeStruct _ _)]
    simp [nodeBytes, hb]
  | .tupleStruct he h => by
    obtain ⟨d', he', hd⟩ := hl _ _ he
    obtain ⟨s', h', hb⟩ := h.later hl
    obtain ⟨r, hr, hrb⟩ := pres_ofFields he' (hd.fields rfl) h'
    refine ⟨r, hr, ?_⟩
    rw [hrb, to_bytes_node (.tupleStruct _ _ _)]
    exact hb
  | .struct (fs := fs) (ss := ss) he h => by
    obtain ⟨d', he', hd⟩ := hl _ _ he
    obtain ⟨s', h', hb⟩ := h.later hl
    obtain ⟨r, hr, hrb⟩ := pres_ofFields he' (hd.fields rfl) h'
    refine ⟨r, hr, ?_⟩
    rw [hrb, to_bytes_node (.struct _ _ _)]
    exact hb.trans (bytesFields_zip fs ss (by simpa using h.length.2)).symm
  | .enumUnit he hv => by
    obtain ⟨d', he', hd⟩ := hl _ _ he
    obtain ⟨vs', rfl, hvs⟩ := hd.variants
    obtain ⟨⟨vn', sh'⟩, hv', hs⟩ := hvs _ _ hv
    cases Shape.fields_none hs
    refine ⟨_, .enumUnit he' hv', ?_⟩
    rw [to_bytes_node, to_bytes_node (.unitVariant _ _ _)]
    rfl
  | .enumNewtype he hv h => by
    obtain ⟨d', he', hd⟩ := hl _ _ he
    obtain ⟨vs', rfl, hvs⟩ := hd.variants
    obtain ⟨v', hv', hs⟩ := hvs _ _ hv
    obtain ⟨s', h', hb⟩ := h.later hl
    obtain ⟨r, hr, hrb⟩ := pres_ofVariant he' hv' (hs.trans rfl) (.cons h' .nil)
    refine ⟨r, hr, ?_⟩
    rw [hrb, to_bytes_node (.newtypeVariant _ _ _ _)]
    simp [nodeBytes, hb]
  | .enumTuple he hv h => by
    obtain ⟨d', he', hd⟩ := hl _ _ he
    obtain ⟨vs', rfl, hvs⟩ := hd.variants
    obtain ⟨v', hv', hs⟩ := hvs _ _ hv
    obtain ⟨s', h', hb⟩ := h.later hl
    obtain ⟨r, hr, hrb⟩ := pres_ofVariant he' hv' (hs.trans rfl) h'
    refine ⟨r, hr, ?_⟩
    rw [hrb, to_bytes_node (.tupleVariant _ _ _ _ _)]
    simp only [nodeBytes, hb]
  | .enumStruct (fs := fs) (ss := ss) he hv h => by
    obtain ⟨d', he', hd⟩ := hl _ _ he
    obtain ⟨vs', rfl, hvs⟩ := hd.variants
    obtain ⟨v', hv', hs⟩ := hvs _ _ hv
    obtain ⟨s', h', hb⟩ := h.later hl
    obtain ⟨r, hr, hrb⟩ := pres_ofVariant he' hv' (hs.trans rfl) h'
    refine ⟨r, hr, ?_⟩
    rw [hrb, to_bytes_node (.structVariant _ _ _ _ _)]
    simp only [nodeBytes]
    rw [hb, bytesFields_zip fs ss (by simpa using h.length.2)]
  | .indexerUnit (i := i) he hv => by
    obtain ⟨d', he', hd⟩ := hl _ _ he
    cases hd with
    | same => exact ⟨_, .indexerUnit he' hv, rfl⟩
    | struct h1 h2 => simp [Def.fields] at h1
    | indexer hi _ =>
      obtain ⟨hlt, _⟩ := List.getElem?_eq_some_iff.mp hv
      refine ⟨_, .indexerUnit he' ((List.getElem?_append_left hlt).trans hv), ?_⟩
      rw [hi i hlt []]
  | .indexer (i := i) (vs := vs) (ss := ss) he hv h => by
    obtain ⟨d', he', hd⟩ := hl _ _ he
    obtain ⟨s', h', hb⟩ := h.later hl
    have hbytes : ∀ idx : Int32, to_bytes (.tuple (i32AsUsize idx) (.i32 idx :: s')) =
        to_bytes (.tuple (i32AsUsize idx) (.i32 idx :: ss)) := fun idx => by
      rw [to_bytes_node, to_bytes_node (.tuple _ (_ :: _))]
      simp only [nodeBytes, bytesList_cons, hb]
    cases hd with
    | same => exact ⟨_, .indexer he' hv h', ofUser_bytes hbytes⟩
    | struct h1 h2 => simp [Def.fields] at h1
    | indexer hi _ =>
      obtain ⟨hlt, _⟩ := List.getElem?_eq_some_iff.mp hv
      refine ⟨_, .indexer he' ((List.getElem?_append_left hlt).trans hv) h', ?_⟩
      rw [hi i hlt vs]
      exact ofUser_bytes hbytes
  | .unionUnit he hv => by
    obtain ⟨d', he', hd⟩ := hl _ _ he
    cases hd with
    | same => exact ⟨_, .unionUnit he' hv, rfl⟩
    | struct h1 h2 => simp [Def.fields] at h1
    | union _ =>
      obtain ⟨hlt, _⟩ := List.getElem?_eq_some_iff.mp hv
      exact ⟨_, .unionUnit he' ((List.getElem?_append_left hlt).trans hv), rfl⟩
  | .union (ss := ss) he hv h => by
    obtain ⟨d', he', hd⟩ := hl _ _ he
    obtain ⟨s', h', hb⟩ := h.later hl
    have hbytes : to_bytes (.tuple 2 s') = to_bytes (.tuple 2 ss) := by
      rw [to_bytes_node, to_bytes_node (.tuple _ _)]
      exact hb
    cases hd with
    | same => exact ⟨_, .union he' hv h', hbytes⟩
    | struct h1 h2 => simp [Def.fields] at h1
    | union _ =>
      obtain ⟨hlt, _⟩ := List.getElem?_eq_some_iff.mp hv
      exact ⟨_, .union he' ((List.getElem?_append_left hlt).trans hv) h', hbytes⟩

theorem PresAll.later {env env' : Env} (hl : Later env env') {t : Ty} {vs : List Val}
    {ss : List SVal} :
    PresAll env t vs ss → ∃ ss', PresAll env' t vs ss' ∧ bytesList ss' = bytesList ss
  | .nil _ => ⟨_, .nil _, rfl⟩
  | .cons h hs => by
    obtain ⟨s', h', hb⟩ := h.later hl
    obtain ⟨ss', hs', hbs⟩ := hs.later hl
    exact ⟨_, .cons h' hs', by rw [bytesList_cons, bytesList_cons, hb, hbs]⟩

theorem PresEach.later {env env' : Env} (hl : Later env env') {ts : List Ty} {vs : List Val}
    {ss : List SVal} :
    PresEach env ts vs ss → ∃ ss', PresEach env' ts vs ss' ∧ bytesList ss' = bytesList ss
  | .nil => ⟨_, .nil, rfl⟩
  | .cons h hs => by
    obtain ⟨s', h', hb⟩ := h.later hl
    obtain ⟨ss', hs', hbs⟩ := hs.later hl
    exact ⟨_, .cons h' hs', by rw [bytesList_cons, bytesList_cons, hb, hbs]⟩

theorem PresEntries.later {env env' : Env} (hl : Later env env') {k t : Ty}
    {es : List (Val × Val)} {ss : List (SVal × SVal)} :
    PresEntries env k t es ss → ∃ ss', PresEntries env' k t es ss' ∧
      bytesEntries ss' = bytesEntries ss
  | .nil _ _ => ⟨_, .nil _ _, rfl⟩
  | .cons h h1 hs => by
    obtain ⟨s', h', hb⟩ := h.later hl
    obtain ⟨s1', h1', hb1⟩ := h1.later hl
    obtain ⟨ss', hs', hbs⟩ := hs.later hl
    refine ⟨_, .cons h' h1' hs', ?_⟩
    simp only [bytesEntries, List.map_cons, Res.concat, hb, hb1] at hbs ⊢
    rw [hbs]
end

theorem toBytes_later {env env' : Env} (hl : Later env env') {t : Ty} {v : Val}
    (h : HasTy env t v) : HasTy env' t v ∧ toBytes env' t v = toBytes env t v := by
  unfold HasTy at h ⊢
  obtain ⟨s, hs⟩ := Option.isSome_iff_exists.mp h
  obtain ⟨s', hs', hb⟩ := (present_sound env t v s hs).later hl
  unfold toBytes
  rw [hs, hs'.complete]
  exact ⟨rfl, hb⟩

end Xdr
