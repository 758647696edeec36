/-
Model of the vorticity diagnostics of the shallow-water output.
-/
import Verif.Model.Dfr
import Mathlib.Data.Real.Basic

namespace WxVerif.Diagnostic

open WxVerif.Dfr

/-- covariant metric, inverse volume element and Coriolis parameter at the `n × n` points of one element -/
structure Metric2 where
  Hcov : Nat → Nat → Nat → ℝ
  invSqrtG : Nat → ℝ
  coriolis : Nat → ℝ

/-- First covariant component — `wx_factory/output/diagnostic.py` 11. -/
def u1Dual (m : Metric2) (u1 u2 : Nat → ℝ) : Nat → ℝ := fun c => m.Hcov 0 0 c * u1 c + m.Hcov 0 1 c * u2 c

/-- Second covariant component — `diagnostic.py` 12. -/
def u2Dual (m : Metric2) (u1 u2 : Nat → ℝ) : Nat → ℝ := fun c => m.Hcov 1 0 c * u1 c + m.Hcov 1 1 c * u2 c

/-- `relative_vorticity` on one element — `diagnostic.py` 9-19.  (The output manager calls it on whole fields; the operators act
element by element.) -/
noncomputable def relativeVorticity (n : Nat) (pts : Nat → ℝ) (m : Metric2) (u1 u2 : Nat → ℝ) (c : Nat) : ℝ :=
  let du1dx2 := vecmul (n * n) (u2Dual m u1 u2) (derivativeY2 n (diffSolpt n pts)) c
  let du2dx1 := vecmul (n * n) (u1Dual m u1 u2) (derivativeX2 n (diffSolpt n pts)) c
  m.invSqrtG c * (du2dx1 - du1dx2)

/-- `potential_vorticity` — `diagnostic.py` 22-28. -/
noncomputable def potentialVorticity (n : Nat) (pts : Nat → ℝ) (m : Metric2) (h u1 u2 : Nat → ℝ) (c : Nat) : ℝ :=
  (relativeVorticity n pts m u1 u2 c + m.coriolis c) / h c

/-- `absolute_vorticity` — `diagnostic.py` 31-35. -/
noncomputable def absoluteVorticity (n : Nat) (pts : Nat → ℝ) (m : Metric2) (u1 u2 : Nat → ℝ) (c : Nat) : ℝ :=
  relativeVorticity n pts m u1 u2 c + m.coriolis c

/-- `potential_enstrophy` — `diagnostic.py` 56-58. -/
noncomputable def potentialEnstrophy (n : Nat) (pts : Nat → ℝ) (m : Metric2) (h u1 u2 : Nat → ℝ) (c : Nat) : ℝ :=
  (relativeVorticity n pts m u1 u2 c + m.coriolis c) ^ 2 / (2 * h c)

end WxVerif.Diagnostic
