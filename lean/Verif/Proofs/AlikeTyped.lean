import Verif.Proofs.AlikeBytes
/-! # Values of a type are values of the types of the same layout -/

namespace Xdr.Wire

variable {env env' : Env} {B : Ty → Ty → Prop}

theorem each_presAll {t : Ty} : ∀ {n vs ss}, PresEach env (List.replicate n t) vs ss →
    vs.length = n ∧ PresAll env t vs ss
  | 0, _, _, h => by cases h; exact ⟨rfl, .nil _⟩
  | n + 1, _, _, h => by
    rw [List.replicate_succ] at h
    cases h with
    | cons h hs =>
      obtain ⟨h1, h2⟩ := each_presAll hs
      exact ⟨by simp [h1], .cons h h2⟩

theorem members_mk {t : Ty} {ts : List Ty} (hm : Members env t ts) {vs : List Val} {ss : List SVal}
    (h : PresEach env ts vs ss) : ∃ s, Pres env t (.seq vs) s := by
  cases hm with
  | tuple => exact ⟨_, .tuple h⟩
  | array =>
    obtain ⟨rfl, h'⟩ := each_presAll h
    exact ⟨_, .array h'⟩
  | newtypeStruct e =>
    cases h with
    | cons h hs =>
      cases hs
      exact ⟨_, .newtypeStruct e h⟩
  | tupleStruct e => exact ⟨_, .tupleStruct e h⟩
  | struct e => exact ⟨_, .struct e h⟩

theorem enum_mk {name : String} {vars : List (String × Shape)} (e : env name = some (.enum vars)) {i : Nat}
    {x : String × Shape} (hx : vars[i]? = some x) {vs : List Val} {ss : List SVal} (h : PresEach env x.2.types vs ss) :
    ∃ s, Pres env (.named name) (.variant i vs) s := by
  obtain ⟨vn, sh⟩ := x
  cases sh with
  | unit => cases h; exact ⟨_, .enumUnit e hx⟩
  | newtype t =>
    cases h with
    | cons h hs =>
      cases hs
      exact ⟨_, .enumNewtype e hx h⟩
  | tuple ts => exact ⟨_, .enumTuple e hx h⟩
  | struct fs => exact ⟨_, .enumStruct e hx h⟩

theorem indexer_mk {name : String} {vars : List (String × Option (List Ty))} {impl : IndexerImpl}
    (e : env name = some (.indexer vars impl)) {i : Nat} {x : String × Option (List Ty)} (hx : vars[i]? = some x)
    {vs : List Val} {ss : List SVal} (h : PresEach env (x.2.getD []) vs ss) :
    ∃ s, Pres env (.named name) (.variant i vs) s := by
  obtain ⟨vn, fs⟩ := x
  cases fs with
  | none => cases h; exact ⟨_, .indexerUnit e hx⟩
  | some ts => exact ⟨_, .indexer e hx h⟩

theorem union_mk {name : String} {disc : Ty} {vars : List (String × Option (List Ty))} {impl : UnionImpl}
    (e : env name = some (.union disc vars impl)) {i : Nat} {x : String × Option (List Ty)} (hx : vars[i]? = some x)
    {vs : List Val} {ss : List SVal} (h : PresEach env (x.2.getD []) vs ss) :
    ∃ s, Pres env (.named name) (.variant i vs) s := by
  obtain ⟨vn, fs⟩ := x
  cases fs with
  | none => cases h; exact ⟨_, .unionUnit e hx⟩
  | some ts => exact ⟨_, .union e hx h⟩

/-- As a value of a related type `v` is well typed too. -/
def Moves (env env' : Env) (B : Ty → Ty → Prop) (v : Val) : Prop :=
  ∀ t t' s, B t t' → Pres env t v s → ∃ s', Pres env' t' v s'

theorem each_moves : ∀ {vs ts ts' ss}, (∀ v ∈ vs, Moves env env' B v) → List.Forall₂ B ts ts' →
    PresEach env ts vs ss → ∃ ss', PresEach env' ts' vs ss'
  | _, _, _, _, _, hb, .nil => by cases hb; exact ⟨_, .nil⟩
  | _, _, _, _, hv, hb, .cons h hs => by
    cases hb with
    | cons b bs =>
      obtain ⟨s', h'⟩ := hv _ (by simp) _ _ _ b h
      obtain ⟨ss', hs'⟩ := each_moves (fun v hm => hv v (by simp [hm])) bs hs
      exact ⟨_, .cons h' hs'⟩

theorem entries_moves {k k' t t' : Ty} (bk : B k k') (bt : B t t') : ∀ {es ss},
    (∀ e ∈ es, Moves env env' B e.1 ∧ Moves env env' B e.2) → PresEntries env k t es ss →
    ∃ ss', PresEntries env' k' t' es ss'
  | _, _, _, .nil _ _ => ⟨_, .nil _ _⟩
  | _, _, hv, .cons h1 h2 hs => by
    have h3 := hv _ (List.mem_cons_self)
    obtain ⟨_, h1'⟩ := h3.1 _ _ _ bk h1
    obtain ⟨_, h2'⟩ := h3.2 _ _ _ bt h2
    obtain ⟨_, hs'⟩ := entries_moves bk bt (fun e hm => hv e (by simp [hm])) hs
    exact ⟨_, .cons h1' h2' hs'⟩

theorem plain_moves (hp : SamePositions env env' B) {t t' : Ty} (b : B t t') (h : Plain t t') {v : Val} {s : SVal}
    (p : Pres env t v s) : ∃ s', Pres env' t' v s' := by
  cases h with
  | same h =>
    simp only [List.mem_cons, List.not_mem_nil, or_false] at h
    rcases h with rfl | rfl | rfl | rfl | rfl | rfl | rfl | rfl | rfl | rfl | rfl | rfl | rfl <;> cases p <;>
      exact ⟨_, by constructor⟩
  | «opaque» h h' =>
    simp only [List.mem_cons, List.not_mem_nil, or_false] at h h'
    rcases h with rfl | rfl <;> rcases h' with rfl | rfl <;> cases p <;>
      first | exact ⟨_, .bytes _⟩ | exact ⟨_, .opaqueVar _⟩
  | opaqueFixed => cases p; exact ⟨_, .opaqueFixed _⟩
  | signed32 =>
    cases p with
    | signed32 e hx =>
      obtain ⟨vars', vn', e', hx'⟩ := hp _ _ _ b _ _ _ e hx
      exact ⟨_, .signed32 e' hx'⟩

theorem noContent_moves {t t' : Ty} (hm : NoContent env t) (hm' : NoContent env' t') {v : Val} {s : SVal}
    (p : Pres env t v s) : ∃ s', Pres env' t' v s' := by
  have hv : v = .unit := by
    cases hm with
    | unit => cases p; rfl
    | unitStruct e => cases p <;> simp_all
  subst hv
  cases hm' with
  | unit => exact ⟨_, .unit⟩
  | unitStruct e => exact ⟨_, .unitStruct e⟩

theorem moves (hB : Layout env env' B) (hp : SamePositions env env' B) :
    ∀ (n : Nat) (v : Val), sizeOf v < n → Moves env env' B v := by
  intro n
  induction n with
  | zero => intro v h; omega
  | succ n ih =>
    intro v hv t t' s b p
    have hseq : ∀ vs, v = .seq vs → ∀ w ∈ vs, Moves env env' B w := by
      rintro vs rfl w hw
      have := List.sizeOf_lt_of_mem hw
      simp only [Val.seq.sizeOf_spec] at hv
      exact ih w (by omega)
    have hvar : ∀ i vs, v = .variant i vs → ∀ w ∈ vs, Moves env env' B w := by
      rintro i vs rfl w hw
      have := List.sizeOf_lt_of_mem hw
      simp only [Val.variant.sizeOf_spec] at hv
      exact ih w (by omega)
    cases hB _ _ b with
    | plain h => exact plain_moves hp b h p
    | noContent h h' => exact noContent_moves h h' p
    | option b' =>
      cases p with
      | none => exact ⟨_, .none _⟩
      | some p =>
        simp only [Val.some.sizeOf_spec] at hv
        obtain ⟨_, p'⟩ := ih _ (by omega) _ _ _ b' p
        exact ⟨_, .some p'⟩
    | vec b' =>
      cases p with
      | vec p =>
        obtain ⟨_, p'⟩ := each_moves (hseq _ rfl) (forall2_replicate b' _) (presAll_each p)
        exact ⟨_, .vec (each_presAll p').2⟩
    | map b1 b2 =>
      cases p with
      | map hk p =>
        obtain ⟨_, p'⟩ := entries_moves b1 b2 (fun e he => by
          have h1 := List.sizeOf_lt_of_mem he
          simp only [Val.map.sizeOf_spec] at hv
          have h2 : sizeOf e = 1 + sizeOf e.1 + sizeOf e.2 := rfl
          exact ⟨ih _ (by omega), ih _ (by omega)⟩) p
        exact ⟨_, .map hk p'⟩
    | members h h' hb =>
      obtain ⟨vs, ss, e1, q, -⟩ := members_pres h p
      obtain ⟨_, q'⟩ := each_moves (hseq _ e1) hb q
      rw [e1]
      exact members_mk h' q'
    | enum h h' hb =>
      obtain ⟨i, vs, x, ss, e1, hx, q, -⟩ := enum_pres h p
      obtain ⟨y, hy, r⟩ := forall2_at hb hx
      obtain ⟨_, q'⟩ := each_moves (hvar _ _ e1) r q
      rw [e1]
      exact enum_mk h' hy q'
    | indexer h h' hb =>
      obtain ⟨i, vs, x, ss, e1, hx, q, -⟩ := indexer_pres h p
      obtain ⟨y, hy, -, r⟩ := forall2_at hb hx
      obtain ⟨_, q'⟩ := each_moves (hvar _ _ e1) r q
      rw [e1]
      exact indexer_mk h' hy q'
    | union h h' _ hb =>
      obtain ⟨i, vs, x, ss, e1, hx, q, -⟩ := union_pres h p
      obtain ⟨y, hy, -, r⟩ := forall2_at hb hx
      obtain ⟨_, q'⟩ := each_moves (hvar _ _ e1) r q
      rw [e1]
      exact union_mk h' hy q'

end Xdr.Wire
