import Verif.Proofs.Alike
import Verif.Proofs.RoundTrip
/-! # Values of types of one layout are written in one way -/

namespace Xdr.Wire

variable {env env' : Env} {B : Ty → Ty → Prop}

theorem presAll_each {t : Ty} : ∀ {vs ss}, PresAll env t vs ss → PresEach env (List.replicate vs.length t) vs ss
  | _, _, .nil _ => .nil
  | _, _, .cons h hs => .cons h (presAll_each hs)

theorem members_pres {t : Ty} {ts : List Ty} (hm : Members env t ts) {v : Val} {s : SVal} (h : Pres env t v s) :
    ∃ vs ss, v = .seq vs ∧ PresEach env ts vs ss ∧ to_bytes s = bytesList ss := by
  cases hm with
  | tuple =>
    cases h with
    | tuple h => exact ⟨_, _, rfl, h, by rw [to_bytes_node, nodeBytes]⟩
  | array =>
    cases h with
    | array h => exact ⟨_, _, rfl, presAll_each h, by rw [to_bytes_node, nodeBytes]⟩
  | newtypeStruct e =>
    cases h with
    | newtypeStruct e' h =>
      rw [e] at e'
      cases e'
      exact ⟨_, _, rfl, .cons h .nil, by rw [to_bytes_node, nodeBytes, bytesList_cons, bytesList_nil, Res.cat_nil]⟩
    | _ => simp_all
  | tupleStruct e =>
    cases h with
    | tupleStruct e' h =>
      rw [e] at e'
      cases e'
      exact ⟨_, _, rfl, h, by rw [to_bytes_node, nodeBytes]⟩
    | _ => simp_all
  | struct e =>
    cases h with
    | struct e' h =>
      rw [e] at e'
      cases e'
      exact ⟨_, _, rfl, h, by rw [to_bytes_node, nodeBytes, bytesFields_zip _ _ (by simpa using h.length.2)]⟩
    | _ => simp_all

theorem noContent_pres {t : Ty} (hm : NoContent env t) {v : Val} {s : SVal} (h : Pres env t v s) :
    to_bytes s = .ok [] := by
  cases hm with
  | unit => cases h; rw [to_bytes_node, nodeBytes]
  | unitStruct e =>
    cases h with
    | unitStruct _ => rw [to_bytes_node, nodeBytes]
    | _ => simp_all

theorem enum_pres {name : String} {vars : List (String × Shape)} (e : env name = some (.enum vars)) {v : Val} {s : SVal}
    (h : Pres env (.named name) v s) : ∃ i vs x ss, v = .variant i vs ∧ vars[i]? = some x ∧
      PresEach env x.2.types vs ss ∧ to_bytes s = (indexBytes (UInt32.ofNat i)).cat (bytesList ss) := by
  cases h with
  | enumUnit e' hx =>
    rw [e] at e'
    cases e'
    exact ⟨_, _, _, [], rfl, hx, .nil, by rw [to_bytes_node, nodeBytes, bytesList_nil, Res.cat_nil]⟩
  | enumNewtype e' hx h =>
    rw [e] at e'
    cases e'
    exact ⟨_, _, _, _, rfl, hx, .cons h .nil,
      by rw [to_bytes_node, nodeBytes, bytesList_cons, bytesList_nil, Res.cat_nil]⟩
  | enumTuple e' hx h =>
    rw [e] at e'
    cases e'
    exact ⟨_, _, _, _, rfl, hx, h, by rw [to_bytes_node, nodeBytes]⟩
  | enumStruct e' hx h =>
    rw [e] at e'
    cases e'
    exact ⟨_, _, _, _, rfl, hx, h, by rw [to_bytes_node, nodeBytes, bytesFields_zip _ _ (by simpa using h.length.2)]⟩
  | _ => simp_all

theorem indexer_pres {name : String} {vars : List (String × Option (List Ty))} {impl : IndexerImpl}
    (e : env name = some (.indexer vars impl)) {v : Val} {s : SVal} (h : Pres env (.named name) v s) :
    ∃ i vs x ss, v = .variant i vs ∧ vars[i]? = some x ∧ PresEach env (x.2.getD []) vs ss ∧
      s = .ofUser (impl.index i vs) fun idx => .tuple (i32AsUsize idx) (.i32 idx :: ss) := by
  cases h with
  | indexerUnit e' hx =>
    rw [e] at e'
    cases e'
    exact ⟨_, _, _, [], rfl, hx, .nil, rfl⟩
  | indexer e' hx h =>
    rw [e] at e'
    cases e'
    exact ⟨_, _, _, _, rfl, hx, h, rfl⟩
  | _ => simp_all

theorem union_pres {name : String} {disc : Ty} {vars : List (String × Option (List Ty))} {impl : UnionImpl}
    (e : env name = some (.union disc vars impl)) {v : Val} {s : SVal} (h : Pres env (.named name) v s) :
    ∃ i vs x ss, v = .variant i vs ∧ vars[i]? = some x ∧ PresEach env (x.2.getD []) vs ss ∧
      to_bytes s = bytesList ss := by
  cases h with
  | unionUnit e' hx =>
    rw [e] at e'
    cases e'
    exact ⟨_, _, _, [], rfl, hx, .nil, by rw [to_bytes_node, nodeBytes]⟩
  | union e' hx h =>
    rw [e] at e'
    cases e'
    exact ⟨_, _, _, _, rfl, hx, h, by rw [to_bytes_node, nodeBytes]⟩
  | _ => simp_all

/-- `v` is written in one way as a value of related types. -/
def OneWay (env env' : Env) (B : Ty → Ty → Prop) (v : Val) : Prop :=
  ∀ t t' s s', B t t' → Pres env t v s → Pres env' t' v s' → to_bytes s = to_bytes s'

theorem each_oneWay : ∀ {vs ts ts' ss ss'}, (∀ v ∈ vs, OneWay env env' B v) → List.Forall₂ B ts ts' →
    PresEach env ts vs ss → PresEach env' ts' vs ss' → bytesList ss = bytesList ss'
  | _, _, _, _, _, _, _, .nil, h' => by cases h'; rfl
  | _, _, _, _, _, hv, hb, .cons h hs, h' => by
    cases h' with
    | cons h' hs' =>
      cases hb with
      | cons b bs =>
        rw [bytesList_cons, bytesList_cons, hv _ (by simp) _ _ _ _ b h h',
          each_oneWay (fun v hm => hv v (by simp [hm])) bs hs hs']

theorem entries_oneWay {k k' t t' : Ty} (bk : B k k') (bt : B t t') : ∀ {es ss ss'},
    (∀ e ∈ es, OneWay env env' B e.1 ∧ OneWay env env' B e.2) →
    PresEntries env k t es ss → PresEntries env' k' t' es ss' → bytesEntries ss = bytesEntries ss'
  | _, _, _, _, .nil _ _, h' => by cases h'; rfl
  | _, _, _, hv, .cons h1 h2 hs, h' => by
    cases h' with
    | cons h1' h2' hs' =>
      have := entries_oneWay bk bt (fun e hm => hv e (by simp [hm])) hs hs'
      have h3 := hv _ (List.mem_cons_self)
      have e1 := h3.1 _ _ _ _ bk h1 h1'
      have e2 := h3.2 _ _ _ _ bt h2 h2'
      simp only [bytesEntries, List.map_cons, Res.concat, e1, e2] at this ⊢
      rw [this]

theorem fixed_pres {n : Nat} {v : Val} {s : SVal} (h : Pres env (.opaqueFixed n) v s) :
    ∃ b, v = .bytes b ∧ s = fixed_serialize b := by
  cases h
  exact ⟨_, rfl, rfl⟩

theorem plain_pres {t t' : Ty} (h : Plain t t') {v : Val} {s s' : SVal} (p : Pres env t v s) (p' : Pres env' t' v s') :
    to_bytes s = to_bytes s' := by
  cases h with
  | same h =>
    simp only [List.mem_cons, List.not_mem_nil, or_false] at h
    rcases h with rfl | rfl | rfl | rfl | rfl | rfl | rfl | rfl | rfl | rfl | rfl | rfl | rfl <;> cases p <;> cases p' <;>
      rfl
  | «opaque» h h' =>
    simp only [List.mem_cons, List.not_mem_nil, or_false] at h h'
    rcases h with rfl | rfl <;> rcases h' with rfl | rfl <;> cases p <;> cases p' <;>
      simp only [to_bytes_variable, to_bytes_node (.bytes _), nodeBytes]
  | opaqueFixed =>
    obtain ⟨b, rfl, rfl⟩ := fixed_pres p
    obtain ⟨b', e, rfl⟩ := fixed_pres p'
    cases e
    rfl
  | signed32 => cases p; cases p'; rfl

theorem oneWay (hB : Layout env env' B) : ∀ (n : Nat) (v : Val), sizeOf v < n → OneWay env env' B v := by
  intro n
  induction n with
  | zero => intro v h; omega
  | succ n ih =>
    intro v hv t t' s s' b p p'
    have hseq : ∀ vs, v = .seq vs → ∀ w ∈ vs, OneWay env env' B w := by
      rintro vs rfl w hw
      have := List.sizeOf_lt_of_mem hw
      simp only [Val.seq.sizeOf_spec] at hv
      exact ih w (by omega)
    have hvar : ∀ i vs, v = .variant i vs → ∀ w ∈ vs, OneWay env env' B w := by
      rintro i vs rfl w hw
      have := List.sizeOf_lt_of_mem hw
      simp only [Val.variant.sizeOf_spec] at hv
      exact ih w (by omega)
    cases hB _ _ b with
    | plain h => exact plain_pres h p p'
    | noContent h h' => rw [noContent_pres h p, noContent_pres h' p']
    | option b' =>
      cases p with
      | none => cases p'; rfl
      | some p =>
        cases p' with
        | some p' =>
          simp only [Val.some.sizeOf_spec] at hv
          rw [to_bytes_node, to_bytes_node (.some _), nodeBytes, nodeBytes, ih _ (by omega) _ _ _ _ b' p p']
    | vec b' =>
      cases p with
      | vec p =>
        cases p' with
        | vec p' =>
          rw [to_bytes_node, to_bytes_node (.seq _ _), nodeBytes, nodeBytes,
            each_oneWay (hseq _ rfl) (forall2_replicate b' _) (presAll_each p) (presAll_each p')]
    | map b1 b2 =>
      cases p with
      | map _ p =>
        cases p' with
        | map _ p' =>
          rw [to_bytes_node, to_bytes_node (.map _ _), nodeBytes, nodeBytes, entries_oneWay b1 b2 (fun e he => ?_) p p']
          have h1 := List.sizeOf_lt_of_mem he
          simp only [Val.map.sizeOf_spec] at hv
          have h2 : sizeOf e = 1 + sizeOf e.1 + sizeOf e.2 := rfl
          exact ⟨ih _ (by omega), ih _ (by omega)⟩
    | members h h' hb =>
      obtain ⟨vs, ss, e1, q, e2⟩ := members_pres h p
      obtain ⟨vs', ss', e1', q', e2'⟩ := members_pres h' p'
      rw [e1] at e1'
      cases e1'
      rw [e2, e2', each_oneWay (hseq _ e1) hb q q']
    | enum h h' hb =>
      obtain ⟨i, vs, x, ss, e1, hx, q, e2⟩ := enum_pres h p
      obtain ⟨i', vs', x', ss', e1', hx', q', e2'⟩ := enum_pres h' p'
      rw [e1] at e1'
      cases e1'
      obtain ⟨y, hy, r⟩ := forall2_at hb hx
      rw [hx'] at hy
      cases hy
      rw [e2, e2', each_oneWay (hvar _ _ e1) r q q']
    | indexer h h' hb =>
      obtain ⟨i, vs, x, ss, e1, hx, q, e2⟩ := indexer_pres h p
      obtain ⟨i', vs', x', ss', e1', hx', q', e2'⟩ := indexer_pres h' p'
      rw [e1] at e1'
      cases e1'
      obtain ⟨y, hy, -, r⟩ := forall2_at hb hx
      rw [hx'] at hy
      cases hy
      have := each_oneWay (hvar _ _ e1) r q q'
      rw [e2, e2']
      cases IndexerImpl.index _ i vs with
      | ok idx =>
        simp only [SVal.ofUser]
        rw [to_bytes_node, to_bytes_node (.tuple _ _), nodeBytes, nodeBytes, bytesList_cons, bytesList_cons, this]
      | _ => rfl
    | union h h' _ hb =>
      obtain ⟨i, vs, x, ss, e1, hx, q, e2⟩ := union_pres h p
      obtain ⟨i', vs', x', ss', e1', hx', q', e2'⟩ := union_pres h' p'
      rw [e1] at e1'
      cases e1'
      obtain ⟨y, hy, -, r⟩ := forall2_at hb hx
      rw [hx'] at hy
      cases hy
      rw [e2, e2', each_oneWay (hvar _ _ e1) r q q']

end Xdr.Wire
