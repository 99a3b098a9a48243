import Verif.Rpcgen.Cost
import Verif.RpcgenProofs.Total
/-!
# The counting parser gives the results of the parser
-/

namespace Xdr.Rpcgen

variable {α β γ : Type}

/-- Same results. -/
def Erases (pc : PC α) (p : P α) : Prop := ∀ i, (pc i).1 = p i

theorem erases_lift (p : P α) : Erases (PC.lift p) p := fun _ => rfl

theorem Erases.bind {pc : PC α} {p : P α} {fc : α → PC β} {f : α → P β} (h : Erases pc p)
    (hf : ∀ a, Erases (fc a) (f a)) : Erases (pc.bind fc) (p.bind f) := by
  intro i
  have := h i
  simp only [PC.bind, P.bind]
  rcases hc : pc i with ⟨x, k⟩
  rw [hc] at this
  rw [← this]
  cases x with
  | ok a r => exact hf a r
  | err => rfl
  | out => rfl

theorem erases_map {pc : PC α} {p : P α} (f : α → β) (h : Erases pc p) : Erases (pc.map f) (map p f) :=
  h.bind fun _ => erases_lift _

theorem erases_preceded {pc : PC α} {p : P α} {qc : PC β} {q : P β} (h : Erases pc p) (h' : Erases qc q) :
    Erases (.preceded pc qc) (preceded p q) := h.bind fun _ => h'

theorem erases_terminated {pc : PC α} {p : P α} {qc : PC β} {q : P β} (h : Erases pc p)
    (h' : Erases qc q) : Erases (.terminated pc qc) (terminated p q) :=
  h.bind fun _ => h'.bind fun _ => erases_lift _

theorem erases_delimited {pc : PC α} {p : P α} {qc : PC β} {q : P β} {rc : PC γ} {r : P γ}
    (h : Erases pc p) (h' : Erases qc q) (h'' : Erases rc r) :
    Erases (.delimited pc qc rc) (delimited p q r) :=
  h.bind fun _ => h'.bind fun _ => h''.bind fun _ => erases_lift _

theorem erases_pair {pc : PC α} {p : P α} {qc : PC β} {q : P β} (h : Erases pc p) (h' : Erases qc q) :
    Erases (.pair pc qc) (pair p q) := h.bind fun _ => h'.bind fun _ => erases_lift _

theorem erases_alt_nil : Erases (.alt []) (alt ([] : List (P α))) := fun _ => rfl

theorem erases_alt_cons {pc : PC α} {p : P α} {pcs : List (PC α)} {ps : List (P α)} (h : Erases pc p)
    (h' : Erases (.alt pcs) (alt ps)) : Erases (.alt (pc :: pcs)) (alt (p :: ps)) := by
  intro i
  have := h i
  simp only [PC.alt, alt]
  rcases hc : pc i with ⟨x, k⟩
  rw [hc] at this
  rw [← this]
  cases x with
  | ok a r => rfl
  | err => exact h' i
  | out => rfl

theorem erases_opt {pc : PC α} {p : P α} (h : Erases pc p) : Erases (.opt pc) (opt p) := by
  intro i
  have := h i
  simp only [PC.opt, opt]
  rcases hc : pc i with ⟨x, k⟩
  rw [hc] at this
  rw [← this]
  cases x <;> rfl

theorem erases_manyLoop {pc : PC α} {p : P α} (h : Erases pc p) :
    ∀ n, Erases (PC.manyLoop pc n) (manyLoop p n) := by
  intro n
  induction n with
  | zero => intro i; rfl
  | succ n ih =>
    intro i
    have := h i
    simp only [PC.manyLoop, manyLoop]
    rcases hc : pc i with ⟨x, k⟩
    rw [hc] at this
    rw [← this]
    cases x with
    | err => rfl
    | out => rfl
    | ok a r =>
      simp only
      split
      · rfl
      · have hr := ih r
        rcases hl : PC.manyLoop pc n r with ⟨y, l⟩
        rw [hl] at hr
        rw [← hr]
        cases y <;> rfl

theorem erases_many0 {pc : PC α} {p : P α} (h : Erases pc p) : Erases (.many0 pc) (many0 p) :=
  fun i => erases_manyLoop h _ i

theorem erases_many1 {pc : PC α} {p : P α} (h : Erases pc p) : Erases (.many1 pc) (many1 p) :=
  h.bind fun _ => (erases_many0 h).bind fun _ => erases_lift _

section
variable {tc : PC TypeSpecifier} {t : P TypeSpecifier}

/-- One step of the proofs below. -/
macro "erase" : tactic => `(tactic| repeat' (first
  | exact erases_lift _ | assumption | exact erases_alt_nil
  | apply erases_alt_cons | apply erases_map | apply erases_pair | apply erases_delimited
  | apply erases_terminated | apply erases_preceded | apply erases_many1 | apply erases_many0
  | apply erases_opt))

theorem erases_declaration (h : Erases tc t) : Erases (declarationC tc) (declaration t) := by
  unfold declarationC declaration
  erase

theorem erases_case_spec (h : Erases tc t) : Erases (case_specC tc) (case_spec t) := by
  have := erases_declaration h
  unfold case_specC case_spec
  erase

theorem erases_struct_body (h : Erases tc t) : Erases (struct_bodyC tc) (struct_body t) := by
  have := erases_declaration h
  unfold struct_bodyC struct_body
  erase

theorem erases_union_body (h : Erases tc t) : Erases (union_bodyC tc) (union_body t) := by
  have := erases_declaration h
  have := erases_case_spec h
  unfold union_bodyC union_body
  erase

theorem erases_typeSpecifierWith (h : Erases tc t) :
    Erases (typeSpecifierWithC tc) (typeSpecifierWith t) := by
  have := erases_struct_body h
  have := erases_union_body h
  unfold typeSpecifierWithC typeSpecifierWith struct_type_specC struct_type_spec union_type_specC
    union_type_spec
  erase

theorem erases_type_def (h : Erases tc t) : Erases (type_defC tc) (type_def t) := by
  have := erases_declaration h
  have := erases_struct_body h
  have := erases_union_body h
  unfold type_defC type_def
  erase

theorem erases_procedure (h : Erases tc t) : Erases (procedureC tc) (procedure t) := by
  unfold procedureC procedure typeOrVoidC typeOrVoid
  erase

theorem erases_version (h : Erases tc t) : Erases (versionC tc) (version t) := by
  have := erases_procedure h
  unfold versionC version
  erase

theorem erases_program (h : Erases tc t) : Erases (programC tc) (program t) := by
  have := erases_version h
  unfold programC program
  erase

theorem erases_definition (h : Erases tc t) : Erases (definitionC tc) (definition t) := by
  have := erases_type_def h
  have := erases_program h
  unfold definitionC definition
  erase

theorem erases_specification (h : Erases tc t) : Erases (specificationC tc) (specification t) := by
  have := erases_definition h
  unfold specificationC specification
  erase

end

theorem erases_type_specifier : ∀ n, Erases (type_specifierC n) (type_specifier n)
  | 0 => fun _ => rfl
  | n + 1 => fun i => erases_typeSpecifierWith (erases_type_specifier n) i

/-- The counting parser returns what the parser returns. -/
theorem parseC_fst (n : Nat) (i : Str) : (parseC n i).1 = parseWith n i := by
  simp only [parseC, parseWith, erases_specification (erases_type_specifier n) i]
  cases specification (type_specifier n) i <;> rfl

end Xdr.Rpcgen
