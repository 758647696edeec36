import Mathlib.Algebra.Group.Basic
import Mathlib.Data.Option.Basic

/-!
Specification of an iteration for `A x = b`: it takes a right-hand side and a guess (which may be missing) and returns a new guess
(which may be missing), or fails (`none`).
-/

namespace WxVerif.Spec.Iteration

variable {E : Type*} [AddCommGroup E]

/-- the value of a guess: a missing one stands for zero -/
def value (x : Option E) : E := x.getD 0

/-- an exact solution comes back unchanged -/
def KeepsExact (A : E → E) (f : E → Option E → Option (Option E)) : Prop :=
  ∀ b x, A x = b → f b (some x) = some (some x)

/-- a missing guess gives the same result as the zero guess -/
def MissingIsZero (f : E → Option E → Option (Option E)) : Prop :=
  ∀ b, (f b none).map value = (f b (some 0)).map value

/-- the result is the guess plus a correction that depends on the residual only -/
def Correction (A : E → E) (f : E → Option E → Option (Option E)) : Prop :=
  ∃ c : E → Option E, ∀ b x, (f b x).map value = (c (b - A (value x))).map fun d => value x + d

end WxVerif.Spec.Iteration
