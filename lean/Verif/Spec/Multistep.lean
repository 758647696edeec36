import Mathlib.RingTheory.PowerSeries.Basic
import Mathlib.RingTheory.PowerSeries.Derivative
import Mathlib.Algebra.Order.Field.Basic
import Mathlib.Data.Nat.Factorial.Basic

/-!
# Specification: multistep bookkeeping and exponential functions as power series
-/

namespace WxVerif.Multistep

/-- the step size changes noticeably between call `n-1` and call `n` (or `n` is the first call) -/
def Restart {K : Type*} [Field K] [LinearOrder K] (dts : Nat → K) (n : Nat) : Prop :=
  n = 0 ∨ (dts (n - 1) ≠ 0 ∧ |dts (n - 1) - dts n| > 1 / 10 ^ 10)

/-- the `m` calls before call `n` exist and the step size did not change since -/
def Uninterrupted {K : Type*} [Field K] [LinearOrder K] (dts : Nat → K) (n m : Nat) : Prop :=
  m ≤ n ∧ ∀ j, n - m < j → j ≤ n → ¬ Restart dts j

/-- the function φ_k(λ t) as a power series in `t`: `φ_k(z) = Σ_l z^l / (l + k)!` -/
noncomputable def phiSeries {K : Type*} [Field K] (k : Nat) (lam : K) : PowerSeries K :=
  PowerSeries.mk fun l => lam ^ l / ((l + k).factorial : K)

end WxVerif.Multistep
