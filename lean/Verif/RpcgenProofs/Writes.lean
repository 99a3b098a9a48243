import Verif.Proofs.Writes
import Verif.RpcgenProofs.Panics
import Verif.RpcgenProofs.Accepted
import Verif.Props.GenUnionTrait
/-! # Which values of a generated program can be written -/

namespace Xdr

theorem contains_pres {env : Env} {name : String} {i : Nat} {vs : List Val} {t : Ty} {v : Val}
    (hc : HasVariant env name i vs t v) : ∀ {s}, Pres env t v s → ∃ s', Pres env (.named name) (.variant i vs) s' := by
  induction hc with
  | here => exact fun h => ⟨_, h⟩
  | part hm _ ih =>
    intro s h
    obtain ⟨s', h'⟩ := parts_pres h _ hm
    exact ih h'

/-- What contains a value that cannot be written cannot be. -/
theorem contains_good {env : Env} {name : String} {i : Nat} {vs : List Val} {t : Ty} {v : Val}
    (hc : HasVariant env name i vs t v) : ∀ {s}, Pres env t v s → (toBytes env t v).Good →
      (toBytes env (.named name) (.variant i vs)).Good := by
  induction hc with
  | here => exact fun _ h => h
  | part hm _ ih =>
    intro s h hg
    obtain ⟨s', h'⟩ := parts_pres h _ hm
    refine ih h' ?_
    have := ((sums h).1.1 hg).2
    unfold partsBytes at this
    rw [good_concat] at this
    exact this _ (List.mem_map.2 ⟨_, hm, rfl⟩)

theorem variant_of_indexer {env : Env} {name : String} {i : Nat} {vs : List Val} {s : SVal}
    (h : Pres env (.named name) (.variant i vs) s) {vars : List (String × Option (List Ty))} {impl : IndexerImpl}
    (he : env name = some (.indexer vars impl)) : ∃ w, vars[i]? = some w := by
  cases h with
  | indexerUnit he' hi => rw [he] at he'; cases he'; exact ⟨_, hi⟩
  | indexer he' hi h => rw [he] at he'; cases he'; exact ⟨_, hi⟩
  | enumUnit he' => rw [he] at he'; cases he'
  | enumNewtype he' => rw [he] at he'; cases he'
  | enumTuple he' => rw [he] at he'; cases he'
  | enumStruct he' => rw [he] at he'; cases he'
  | unionUnit he' => rw [he] at he'; cases he'
  | union he' => rw [he] at he'; cases he'

theorem variant_of_enum {env : Env} {name : String} {i : Nat} {vs : List Val} {s : SVal}
    (h : Pres env (.named name) (.variant i vs) s) {vars : List (String × Shape)}
    (he : env name = some (.enum vars)) : i < vars.length := by
  suffices ∃ w, vars[i]? = some w by
    obtain ⟨w, hw⟩ := this
    exact (List.getElem?_eq_some_iff.1 hw).1
  cases h with
  | indexerUnit he' hi => rw [he] at he'; cases he'
  | indexer he' hi h => rw [he] at he'; cases he'
  | enumUnit he' hi => rw [he] at he'; cases he'; exact ⟨_, hi⟩
  | enumNewtype he' hi => rw [he] at he'; cases he'; exact ⟨_, hi⟩
  | enumTuple he' hi => rw [he] at he'; cases he'; exact ⟨_, hi⟩
  | enumStruct he' hi => rw [he] at he'; cases he'; exact ⟨_, hi⟩
  | unionUnit he' => rw [he] at he'; cases he'
  | union he' => rw [he] at he'; cases he'

end Xdr

namespace Xdr.Rpcgen

theorem arm_isSome {α β : Type} [DecidableEq α] {k : α} {l : List (α × β)} (h : k ∈ l.map (·.1)) :
    ∃ b, arm k l = some b := by
  cases ha : arm k l with
  | some b => exact ⟨b, rfl⟩
  | none =>
    obtain ⟨⟨a, b⟩, hm, rfl⟩ := List.mem_map.1 h
    exact (arm_none_of ha hm).elim

theorem enumLoop_plain {l : List (Int × Assign)} {s : Int} {steps : List (List (RIdent × Int) × RIdent × Int)}
    (h : enumLoop false l s = .ok steps) : (steps.flatMap fun s => s.1 ++ [s.2]) = steps.map (·.2) := by
  induction l generalizing s steps with
  | nil =>
    cases h
    rfl
  | cons p l ih =>
    obtain ⟨e, a⟩ := p
    simp only [enumLoop, GR.bind_eq_ok] at h
    obtain ⟨r, hr, i, hi, h⟩ := h
    split at h
    · cases h
    · simp only [GR.bind_eq_ok] at h
      obtain ⟨steps', h', h⟩ := h
      cases h
      cases hr
      simp [ih h']

theorem unionLoop_indexed {cxt : Context} (hcx : cxt.config.union_complement_index = false) {n : Nat}
    {cond : TypeSpecifier} {l : List (Int × Declaration × Value)} {s : Int} {steps : List CaseStep}
    (h : unionLoop cxt n cond l s = .ok steps) : ∀ st ∈ steps, ∀ v ∈ st.variants, v.name = st.index.1 := by
  induction l generalizing s steps with
  | nil =>
    cases h
    simp
  | cons p l ih =>
    obtain ⟨e, d, v⟩ := p
    simp only [unionLoop, hcx, GR.bind_eq_ok] at h
    obtain ⟨r, hr, c, hc, b, hb, h⟩ := h
    split at h
    · cases h
    · simp only [GR.bind_eq_ok] at h
      obtain ⟨steps', h', h⟩ := h
      cases h
      cases hr
      obtain ⟨-, -, -, -, hn, -⟩ := convert_case_ok hc
      intro st hst
      rcases List.mem_cons.1 hst with rfl | hst
      · intro w hw
        simp only [List.nil_append, List.mem_singleton] at hw
        subst hw
        exact hn
      · exact ih h' st hst

theorem bool_indexed {cxt : Context} {n : Nat} {cond : TypeSpecifier} {specs : List CaseSpec} {label : Value → Bool}
    {b : Bool} {st : CaseStep} (h : boolCase cxt n cond specs label b = .ok (some st)) :
    ∀ v ∈ st.variants, v.name = st.index.1 := by
  unfold boolCase at h
  split at h
  · cases h
  · split at h
    · cases h
    · simp only [GR.bind_eq_ok] at h
      obtain ⟨c, hc, h⟩ := h
      cases h
      obtain ⟨-, -, -, -, hn, -⟩ := convert_case_ok hc
      intro w hw
      rw [List.mem_singleton] at hw
      subst hw
      exact hn

theorem cases_indexed {cxt : Context} (hcx : cxt.config.union_complement_index = false) {n : Nat} {b : UnionBody}
    {ct : TypeSpecifier} {acc : UnionAcc} (h : unionCases cxt n b = .ok (ct, acc)) :
    ∀ v ∈ acc.variants, v.name ∈ acc.index.map (·.1) := by
  have hloop : ∀ {cond l steps}, unionLoop cxt n cond l 0 = .ok steps →
      ∀ v ∈ (UnionAcc.ofSteps steps).variants, v.name ∈ (UnionAcc.ofSteps steps).index.map (·.1) := by
    intro cond l steps hs v hv
    obtain ⟨st, h1, h2⟩ := List.mem_flatMap.1 hv
    rw [unionLoop_indexed hcx hs st h1 v h2]
    exact List.mem_map.2 ⟨_, List.mem_map.2 ⟨st, h1, rfl⟩, rfl⟩
  unfold unionCases at h
  split at h
  · split at h
    · simp only [GR.bind_eq_ok] at h
      obtain ⟨values, hv, steps, hs, h⟩ := h
      cases h
      exact hloop hs
    · simp only [GR.bind_eq_ok] at h
      obtain ⟨values, hv, steps, hs, h⟩ := h
      cases h
      exact hloop hs
    · simp only [GR.bind_eq_ok] at h
      obtain ⟨f, hf, t, ht, h⟩ := h
      cases h
      have hbr : ∀ s, boolReserved cxt s = [] := by
        intro s
        simp [boolReserved, hcx]
      intro v hv
      rcases List.mem_append.1 hv with hv | hv
      · cases f with
        | none =>
          rw [hbr] at hv
          cases hv
        | some st =>
          rw [bool_indexed hf v hv]
          simp
      · cases t with
        | none =>
          rw [hbr] at hv
          cases hv
        | some st =>
          rw [bool_indexed ht v hv]
          simp
    · cases h
  · cases h

/-- What the variants of a generated program that cannot be written are. -/
theorem gen_refusal {ds : List Definition} {cfg : Config} {n : Nat} (hrt : cfg.remove_typedef = true)
    {file : RustFile} (hg : gen_code n ds cfg = .ok file) {defs : List (String × Def)} (hd : file.defs = some defs)
    {name : String} {i : Nat} {vs : List Val} {r : Res Bytes} (hr : Refusal (Xdr.program defs) name i vs r) {s : SVal}
    (hp : Pres (Xdr.program defs) (.named name) (.variant i vs) s) :
    (r = .err .convert ∧ 2147483648 ≤ i ∧ ∃ vars, Xdr.program defs name = some (.enum vars) ∧ i < vars.length) ∨
    (r = .panic .unimplemented ∧ cfg.union_impl_indexer = true ∧ ∃ nm b ty, .type (.union nm b) ∈ ds ∧
      b.default.isSome = true ∧ upper_camel_case_ident nm = .ok ty ∧ ty.str = name ∧
      WireNumbers.VariantAt (Xdr.program defs) name i "Default") := by
  have key : ∀ {vars impl}, Xdr.program defs name = some (.indexer vars impl) →
      (∃ k, impl.index i vs = .ok k) ∨ (impl.index i vs = .panic .unimplemented ∧
      cfg.union_impl_indexer = true ∧ ∃ nm b ty, .type (.union nm b) ∈ ds ∧
      b.default.isSome = true ∧ upper_camel_case_ident nm = .ok ty ∧ ty.str = name ∧
      WireNumbers.VariantAt (Xdr.program defs) name i "Default") := by
    intro vars impl he
    obtain ⟨w, hw⟩ := variant_of_indexer hp he
    rcases program_origin hd he with ⟨-, h⟩ | ⟨item, hi, hname, hm⟩
    · cases h
    · rcases item_origin hrt hg hi with ⟨nm, as, e, hin, rfl, hc⟩ | ⟨nm, ms, s, hin, rfl, hc⟩ |
        ⟨nm, b, u, hin, rfl, hc⟩
      · obtain ⟨indexed, steps, -, -, hl, -, hdi, hv, -, -, hix⟩ := convert_enum_ok hc
        obtain ⟨-, ⟨-, h⟩ | ⟨hder, ix, hix', h⟩⟩ := enum_meaning_ok hm
        · cases h
        · cases h
          have hci : (setup_context ds cfg).config.enum_impl_indexer = true := hdi.symm.trans hder
          have hcc : (setup_context ds cfg).config.enum_complement_index = false := by
            simp [Config.enum_complement_index, hci]
          rw [hcc] at hl
          rw [enumLoop_plain hl] at hv
          rw [hix, if_pos hci] at hix'
          cases hix'
          left
          rw [List.getElem?_map, Option.map_eq_some_iff] at hw
          obtain ⟨v, hv', rfl⟩ := hw
          obtain ⟨k, hk⟩ := arm_isSome (k := v.1) (l := steps.map (·.2))
            (List.mem_map.2 ⟨v, by rw [← hv]; exact List.mem_of_getElem? hv', rfl⟩)
          simp only [enumIndexerImpl, hv', Option.bind_some, hk]
          exact ⟨_, rfl⟩
      · simp only [Item.meaning] at hm
        unfold StructItem.meaning at hm
        split at hm
        · simp only [Option.map_eq_some_iff] at hm
          obtain ⟨_, -, h⟩ := hm
          cases h
        · cases hm
      · obtain ⟨-, ⟨-, _, -, h⟩ | ⟨hder, ix, vars', hix, h1, h2, -, -, h⟩ | ⟨-, _, _, _, _, -, -, -, -, -, -, -, -, h⟩⟩ :=
          union_meaning_ok hm
        · cases h
        · cases h
          obtain ⟨ct, acc, dflt, hid, ha, hdf, -, hde, hv, hix', -⟩ := convert_union_ok hc
          have hci : (setup_context ds cfg).config.union_impl_indexer = true := by
            rw [hix'] at hix
            split at hix
            · assumption
            · cases hix
          have hcc : (setup_context ds cfg).config.union_complement_index = false := by
            simp [Config.union_complement_index, hci]
          rw [hix', if_pos hci] at hix
          cases hix
          have hall := cases_indexed hcc ha
          obtain ⟨v, hv', id, hvn, -, hwn, -⟩ := forall₂_get_right (variantsMeaning_ok h1) hw
          simp only [unionIndexerImpl, hv', Option.bind_some]
          cases hk : arm v.name acc.index with
          | some k => exact .inl ⟨_, rfl⟩
          | none =>
            right
            have hnot : v.name ∉ acc.index.map (·.1) := by
              intro hmem
              obtain ⟨k, hk'⟩ := arm_isSome hmem
              rw [hk] at hk'
              cases hk'
            have hvm : v ∈ u.variants := List.mem_of_getElem? hv'
            rw [hv] at hvm
            rcases List.mem_append.1 hvm with hvm | hvm
            · exact absurd (hall v hvm) hnot
            · cases hb : b.default with
              | none =>
                rw [hb] at hdf
                cases hdf
                simp at hvm
              | some d =>
                rw [hb] at hdf
                obtain ⟨o, v', -, hv'', -, hn', -⟩ := unionDefault_some hdf
                rw [hv''] at hvm
                simp only [Option.toList_some, List.mem_singleton] at hvm
                subst hvm
                refine ⟨by simp, hci, nm, b, u.name, hin, by simp [hb], hid, hname, ?_⟩
                rw [hvn] at hn'
                have hwd : w.1 = "Default" := by
                  rw [hwn]
                  cases hn'
                  rfl
                obtain ⟨vn, fs⟩ := w
                simp only at hwd
                subst hwd
                exact .inr ⟨_, fs, _, he, hw⟩
        · cases h
  cases hr with
  | number h1 h2 => exact .inl ⟨rfl, by have := Nat.mod_le i 4294967296; omega, _, h1, variant_of_enum hp h1⟩
  | panic h1 h2 =>
    rcases key h1 with ⟨k, hk⟩ | ⟨hk, h⟩
    · rw [hk] at h2; cases h2
    · rw [hk] at h2; cases h2
      exact .inr ⟨rfl, h⟩
  | err h1 h2 =>
    rcases key h1 with ⟨k, hk⟩ | ⟨hk, h⟩
    · rw [hk] at h2; cases h2
    · rw [hk] at h2; cases h2
  | depth h1 h2 =>
    rcases key h1 with ⟨k, hk⟩ | ⟨hk, h⟩
    · rw [hk] at h2; cases h2
    · rw [hk] at h2; cases h2

end Xdr.Rpcgen
