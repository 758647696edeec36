import Mathlib.Analysis.SpecialFunctions.Sqrt
import Mathlib.Analysis.SpecialFunctions.Pow.Real

/-!
# Specification: first-order runs create no new extremes

Quantities of one cell of a first-order finite-volume scheme.
-/

namespace WxVerif.Spec.MaxPrinciple

/-- The share of its content that a cell can lose in time `dt` through its two faces in one direction: `v` is the velocity in this
    direction, `c` the speed of the fast waves, `Δ` the width of the cell. For `|v| ≤ c` it is at most `c dt / Δ`. -/
noncomputable def share (v c Δ dt : ℝ) : ℝ := dt * ((v ^ 2 / c + c) / (2 * Δ))

/-- The most that can leave through a face in one unit of time and length: `h` is the depth at the face, `v` the velocity out of the
    cell, `a` the speed of the waves across the face: `h (v + a)² / 4a`. For `v = a` it is `h v`. -/
noncomputable def leaving (h v a : ℝ) : ℝ := h * ((v / a + 1) ^ 2 * a / 4)

/-- speed of sound of dry air with density `ρ` and `ρθ`: `√(γ p / ρ)` with `p = 1000 hPa (ρθ R / 1000 hPa)^γ`, `R = 287.05`,
    `γ = 1005.46 / 718.41` -/
noncomputable def soundSpeed (ρ ρθ : ℝ) : ℝ :=
  Real.sqrt (1005.46 / 718.41 * (100000 * (ρθ * 287.05 / 100000) ^ (1005.46 / 718.41 : ℝ)) / ρ)

/-- the content stays positive, and the mixing ratio `b / a` stays between `lo` and `hi` -/
def Between (lo hi a b : ℝ) : Prop := 0 < a ∧ lo * a ≤ b ∧ b ≤ hi * a

end WxVerif.Spec.MaxPrinciple
