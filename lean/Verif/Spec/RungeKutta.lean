import Verif.Model.RungeKutta

/-!
# Specification: what a user of the adaptive solver assumes and observes
-/

namespace WxVerif.RungeKutta

/-- what the constants of the solver satisfy: nonnegative minimum steps, a safety factor below one and a norm
    that is not negative -/
structure Good {V : Type*} (p : Problem V) : Prop where
  a : 0 ≤ p.hMinA
  b : 0 < p.hMinB
  safety0 : 0 < p.control.safety
  safety1 : p.control.safety < 1
  safetySc : 0 ≤ p.control.safetySc
  norm : ∀ y y' v e, p.errNorm y y' v = .fin e → 0 ≤ e

/-- the smallest step allowed in state `s` -/
noncomputable def minStep {V : Type*} (p : Problem V) (s : Solver V) : ℝ :=
  max (p.hMinA * (|s.t| + s.h)) p.hMinB

variable {V : Type*} [AddCommGroup V] [Module ℝ V]

/-- a call of `step` in state `s` ends and leaves the solver in state `s'` -/
def Next (p : Problem V) (s s' : Solver V) : Prop := ∃ n, ∀ k, n ≤ k → step p k s = .ok s'

/-- `n` calls of `step`, all of which end without an exception -/
inductive Steps (p : Problem V) : Nat → Solver V → Solver V → Prop
  | zero (s) : Steps p 0 s s
  | succ {n s s' s''} : Steps p n s s' → Next p s' s'' → Steps p (n + 1) s s''

end WxVerif.RungeKutta
