import Verif.Spec.Fits
/-! `Fits` (what decodes to itself) includes `Small` (what has lengths that can be written) -/

namespace Xdr
mutual
/-- `Fits` includes the length conditions. -/
theorem Fits.small (env : Env) : ∀ (v : Val) (t : Ty), Fits env t v → Small env t v
  | .seq vs, t, h => by
    cases t with
    | vec t =>
      simp only [Fits] at h
      simp only [Small]
      exact ⟨h.1, FitsAll.small env t vs h.2⟩
    | array n t =>
      simp only [Fits] at h
      simp only [Small]
      exact FitsAll.small env t vs h
    | tuple ts =>
      simp only [Fits] at h
      simp only [Small]
      exact FitsEach.small env vs ts h
    | named name =>
      cases he : env name with
      | none => simp only [Small, he]
      | some d =>
        cases d with
        | newtypeStruct t =>
          match vs, h with
          | [], _ => simp only [Small, he]
          | [v], h =>
            simp only [Fits, he] at h
            simp only [Small, he]
            exact Fits.small env v t h
          | _ :: _ :: _, _ => simp only [Small, he]
        | tupleStruct ts =>
          simp only [Fits, he] at h
          simp only [Small, he]
          exact FitsEach.small env vs ts h
        | struct fs =>
          simp only [Fits, he] at h
          simp only [Small, he]
          exact FitsEach.small env vs _ h
        | _ => simp only [Small, he]
    | _ => simp only [Small]
  | .variant i vs, t, h => by
    cases t with
    | named name =>
      cases he : env name with
      | none => simp only [Small, he]
      | some d =>
        cases d with
        | «enum» vars =>
          simp only [Fits, he] at h
          simp only [Small, he]
          refine ⟨h.1, ?_⟩
          have h2 := h.2
          clear h
          cases hv : vars[i]? with
          | none => trivial
          | some p =>
            obtain ⟨vn, sh⟩ := p
            rw [hv] at h2
            cases sh with
            | unit => trivial
            | newtype t =>
              match vs, h2 with
              | [], _ => trivial
              | [v], h => exact Fits.small env v t h
              | _ :: _ :: _, _ => trivial
            | tuple ts => exact FitsEach.small env vs ts h2
            | struct fs => exact FitsEach.small env vs _ h2
        | indexer vars impl =>
          simp only [Fits, he] at h
          simp only [Small, he]
          cases hv : vars[i]? with
          | none => trivial
          | some p =>
            obtain ⟨vn, fs⟩ := p
            rw [hv] at h
            cases fs with
            | none => trivial
            | some ts => exact FitsEach.small env vs ts h.2.2.2
        | union disc vars impl =>
          simp only [Fits, he] at h
          simp only [Small, he]
          cases hv : vars[i]? with
          | none => trivial
          | some p =>
            obtain ⟨vn, fs⟩ := p
            rw [hv] at h
            cases fs with
            | none => trivial
            | some ts => exact FitsEach.small env vs ts h.2.2
        | _ => simp only [Small, he]
    | _ => simp only [Small]
  | .map es, t, h => by
    cases t with
    | map k t =>
      simp only [Fits] at h
      simp only [Small]
      exact ⟨h.1, FitsEntries.small env k t es h.2⟩
    | named name =>
      cases he : env name with
      | none => simp only [Small, he]
      | some d => cases d <;> simp only [Small, he]
    | _ => simp only [Small]
  | .some v, t, h => by
    cases t with
    | option t =>
      simp only [Fits] at h
      simp only [Small]
      exact Fits.small env v t h
    | named name =>
      cases he : env name with
      | none => simp only [Small, he]
      | some d => cases d <;> simp only [Small, he]
    | _ => simp only [Small]
  | .bool _, t, h | .i8 _, t, h | .i16 _, t, h | .i32 _, t, h | .i64 _, t, h | .u8 _, t, h | .u16 _, t, h
  | .u32 _, t, h | .u64 _, t, h | .f32 _, t, h | .f64 _, t, h | .char _, t, h | .str _, t, h | .bytes _, t, h
  | .none, t, h | .unit, t, h => by
    cases t with
    | named name =>
      cases he : env name with
      | none => simp only [Small, he]
      | some d => cases d <;> simp only [Small, he]
    | _ =>
      first
      | simp only [Small]; done
      | simp only [Small]; simp only [Fits] at h; exact h

theorem FitsAll.small (env : Env) (t : Ty) : ∀ vs, FitsAll env t vs → SmallAll env t vs
  | [], _ => trivial
  | v :: vs, h => ⟨Fits.small env v t h.1, FitsAll.small env t vs h.2⟩

theorem FitsEach.small (env : Env) : ∀ vs ts, FitsEach env ts vs → SmallEach env ts vs
  | v :: vs, t :: ts, h => ⟨Fits.small env v t h.1, FitsEach.small env vs ts h.2⟩
  | [], [], _ => trivial
  | [], _ :: _, _ => trivial
  | _ :: _, [], _ => trivial

theorem FitsEntries.small (env : Env) (k t : Ty) : ∀ es, FitsEntries env k t es → SmallEntries env k t es
  | [], _ => trivial
  | (a, b) :: es, h => ⟨Fits.small env a k h.1, Fits.small env b t h.2.1, FitsEntries.small env k t es h.2.2⟩
end
end Xdr
