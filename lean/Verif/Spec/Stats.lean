import Mathlib.Data.List.Basic

/-!
Specification of the rows that a run should leave in the statistics database: step by step, iteration by iteration.
-/

namespace WxVerif.Spec.Stats

/-- `(step, iteration, value)` for the values given step by step; steps and iterations are counted from 0 -/
def rows {α : Type*} (steps : List (List α)) : List (Nat × Nat × α) :=
  steps.zipIdx.flatMap fun s => s.1.zipIdx.map fun v => (s.2, v.2, v.1)

example : rows [["a", "b"], [], ["c"]] = [(0, 0, "a"), (0, 1, "b"), (2, 0, "c")] := rfl

end WxVerif.Spec.Stats
