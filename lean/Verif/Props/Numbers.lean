import Verif.RpcgenProofs.Number
import Verif.Props.Parsing
/-!
# Property C38: numeric literals

`Constant.value t c` is `Constant::value::<T>`, `parser.rs` 63-71. `Constant.number c` is the
mathematical number (`Spec/Numbers.lean`).
-/

namespace Xdr.Rpcgen

/-- C38. A literal has its mathematical value in every integer type that holds it, and is an error in
every other. -/
theorem C38_value {c : Constant} {s : Str} (h : ConstantText c s) (t : IntTy) :
    c.value t = if t.low ≤ c.number ∧ c.number ≤ t.high then .ok c.number else .err (.parse c) := by
  rw [IntTy.low_eq, IntTy.high_eq]
  unfold Constant.value
  rw [tryInto_eq h t]
  by_cases hh : t.min ≤ c.number ∧ c.number ≤ t.max
  · rw [if_pos hh, if_pos (show t.Holds c.number from hh)]
    rfl
  · rw [if_neg hh, if_neg (show ¬ t.Holds c.number from hh)]
    rfl

/-- C38. The same for every literal of every file that was read. -/
theorem C38_parsed {i : Str} {ds : List Definition} (h : parse i = .ok ds) {c : Constant}
    (hc : .number c ∈ atoms ds) (t : IntTy) :
    c.value t = if t.low ≤ c.number ∧ c.number ≤ t.high then .ok c.number else .err (.parse c) := by
  obtain ⟨s, hs⟩ : ∃ s, ConstantText c s := wellFormed_of_text (parseWith_text h) _ hc
  exact C38_value hs t

example : ConstantText (.decimal c!"-2147483648") c!"-2147483648" ∧
    (Constant.decimal c!"-2147483648").value .i32 = .ok (-2147483648) ∧
    (Constant.decimal c!"-2147483649").value .i32 = .err (.parse (.decimal c!"-2147483649")) ∧
    (Constant.decimal c!"-1").value .u32 = .err (.parse (.decimal c!"-1")) ∧
    (Constant.hex c!"fFffFFff").value .u32 = .ok 4294967295 ∧
    (Constant.hex c!"ffffffff").value .i32 = .err (.parse (.hex c!"ffffffff")) ∧
    (Constant.octal c!"0017").value .usize = .ok 15 := by
  refine ⟨⟨rfl, .inr ⟨'2', c!"147483648", .inr rfl, rfl, by decide, by decide⟩⟩, rfl, rfl, rfl, rfl, rfl, rfl⟩

example : Atom.number (.hex c!"10") ∈ atoms exampleFile := by
  simp [atoms, exampleFile, Definition.atoms, Assign.atoms, Value.atoms]

end Xdr.Rpcgen
