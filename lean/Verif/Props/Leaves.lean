import Verif.Lemmas.LeavesLess
import Verif.Lemmas.Parser.Shown
/-
C45: serialising a value does not drop data.
-/

namespace Kdl

open Spec

section
variable [FloatKey]

/-- **C45**, partial: the document written for a value states exactly the scalars of the value,
each as often as it occurs and at its place, and no others. Missing, because the code drops or
misplaces them (see the `C45_violated` theorems): the values that are not `FaithfulDoc`. -/
theorem C45_represented_partial {v : SVal} {d : Document} (h : toDocument v = some d) (hf : FaithfulDoc v) :
    (listFacts (semDoc id d)).Perm (docLeaves v) :=
  serDoc_facts v h hf

/-- **C45**, exactly: the document states exactly the scalars of the value if and only if the
value is `FaithfulDoc`. -/
theorem C45_exact {v : SVal} {d : Document} (h : toDocument v = some d) :
    (listFacts (semDoc id d)).Perm (docLeaves v) ↔ FaithfulDoc v := by
  refine ⟨fun hp => Classical.byContradiction fun hf => ?_, C45_represented_partial h⟩
  have := serDoc_less v h hf
  have e : docFacts d = listFacts (semDoc id d) := rfl
  rw [e, weight_perm hp] at this
  exact absurd this (by simp [docFacts, Document.new, semDoc, semNodes, listFacts])

/-- C45 is violated: a struct variant loses all its fields. -/
theorem C45_violated_variant : ∃ v d, toDocument v = some d ∧ listFacts (semDoc id d) = [] ∧
    ⟨[['V'], ['a']], none, .integer ⟨1, by decide⟩⟩ ∈ docLeaves v :=
  ⟨.structVariant ['V'] [(['a'], .int ⟨1, by decide⟩)], _, rfl, rfl, by
    simp [docLeaves, fieldLeaves, fieldPlace, leaves, below, isFlag]; rfl⟩

/-- C45 is violated: a field holding the sequence `[false, true]` is not written. -/
theorem C45_violated_seq : ∃ v d, toDocument v = some d ∧ listFacts (semDoc id d) = [] ∧
    ⟨[['a']], none, .bool true⟩ ∈ docLeaves v :=
  ⟨.struct [(['a'], .seq [.bool false, .bool true])], _, rfl, rfl, by
    simp [docLeaves, leaves, listLeaves, below, isFlag]⟩

/-- C45 is violated: a struct with an argument field holding `false` is dropped together with its
other fields. -/
theorem C45_violated_struct : ∃ v d, toDocument v = some d ∧ listFacts (semDoc id d) = [] ∧
    ⟨[['a'], ['b']], none, .bool true⟩ ∈ docLeaves v :=
  ⟨.struct [(['a'], .struct [(['#', '0'], .bool false), (['b'], .bool true)])], _, rfl, rfl, by
    simp [docLeaves, leaves, fieldLeaves, fieldPlace, below, isFlag]⟩

/-- C45 is violated: the `#args` field of a struct variant inside a struct is not written. -/
theorem C45_violated_args : ∃ v d, toDocument v = some d ∧ listFacts (semDoc id d) = [] ∧
    ⟨[['a'], ['V']], none, .bool true⟩ ∈ docLeaves v :=
  ⟨.struct [(['a'], .structVariant ['V'] [(['#', 'a', 'r', 'g', 's'], .seq [.bool true])])], _, rfl, rfl, by
    simp [docLeaves, leaves, listLeaves, fieldLeaves, fieldPlace, below, isFlag]⟩

/-- C45 is violated: the property of a struct variant inside a struct is written to the node around it. -/
theorem C45_violated_prop : ∃ v d, toDocument v = some d ∧
    listFacts (semDoc id d) = [⟨[['a']], some ['k'], .bool true⟩] ∧ docLeaves v = [⟨[['a'], ['V']], some ['k'], .bool true⟩] :=
  ⟨.struct [(['a'], .structVariant ['V'] [(['#', '@', 'k'], .bool true)])], _, rfl, rfl, by
    simp [docLeaves, leaves, fieldLeaves, fieldPlace, below, isFlag]⟩

/-- A value meeting the hypotheses of `C45_represented_partial`: a struct with a flag, a sequence
with a null inside, and a struct with an argument, a property and a child. -/
example : ∃ v d, toDocument v = some d ∧ FaithfulDoc v ∧ docLeaves v =
    [⟨[['s']], none, .bool true⟩, ⟨[['s']], none, .null⟩, ⟨[['t']], none, .bool true⟩, ⟨[['t']], some ['k'], .null⟩,
      ⟨[['t'], ['c']], none, .string ['x']⟩] := by
  refine ⟨.struct [(['f'], .bool false), (['s'], .seq [.bool true, .none]),
    (['t'], .struct [(['#', '0'], .bool true), (['#', '@', 'k'], .unit), (['c'], .char 'x')])], _, rfl, ?_, ?_⟩
  · intro f hf
    simp only [List.mem_cons, List.not_mem_nil, or_false] at hf
    rcases hf with rfl | rfl | rfl <;>
      simp [FlagSafe, Faithful, FaithfulFields, leaves, listLeaves, fieldLeaves, fieldPlace, ownArgs, isFlag, below]
  · simp [docLeaves, leaves, listLeaves, fieldLeaves, fieldPlace, below, isFlag]

end

end Kdl
