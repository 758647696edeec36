import Mathlib.Algebra.Order.Field.Basic

/-!
# Specification: the schedule of a run

Time is advanced by constant steps `dt` from 0, the last step being cut at `tEnd`.
-/

namespace WxVerif.Schedule

variable {K : Type*} [Field K] [LinearOrder K]

/-- Time reached after `n` steps. -/
def timeAfter (tEnd dt : K) (n : Nat) : K := min (n * dt) tEnd

/-- Size of step number `n + 1`. -/
def stepSize (tEnd dt : K) (n : Nat) : K := timeAfter tEnd dt (n + 1) - timeAfter tEnd dt n

/-- Records (step number, step size, time reached) of the `m` steps following step `a`. -/
def expectedSteps (tEnd dt : K) (a m : Nat) : List (Nat × K × K) :=
  (List.range m).map fun i => (a + i + 1, stepSize tEnd dt (a + i), timeAfter tEnd dt (a + i + 1))

/-- The step numbers among `a, a+1, …, a+m` at which an output of frequency `f` is due. -/
def due (f : Int) (a m : Nat) : List Nat :=
  (List.range' a (m + 1)).filter fun id => decide (0 < f ∧ f ∣ (id : Int))

end WxVerif.Schedule
