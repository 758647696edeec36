import Verif.Model.Newton

/-!
# Specification: sequences of inexact Newton iterates
-/

namespace WxVerif.Newton

variable {K : Type*} {V : Type*} [Field K] [LinearOrder K] [IsStrictOrderedRing K] [AddCommGroup V] [Module K V]

/-- `y` is one inexact Newton step from `x`: along the direction that the linear solver gives for the function value at `x`
    and a tolerance that is neither negative nor above `0.9999`, and of some length; without line search the length is 1 -/
def NewtonStep (p : Solver K V) (x y : V) : Prop :=
  ∃ s tau : K, 0 ≤ tau ∧ tau ≤ 9999 / 10000 ∧ y = x + s • -p.solve x (p.F x) tau ∧ (p.search = none → s = 1)

/-- consecutive elements are Newton steps -/
def Path (p : Solver K V) : List V → Prop
  | x :: y :: rest => NewtonStep p x y ∧ Path p (y :: rest)
  | _ => True

end WxVerif.Newton
