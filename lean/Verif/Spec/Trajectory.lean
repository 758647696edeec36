/-
Small specification for C62: air parcels and quantities carried by the wind.
-/
import Mathlib.Analysis.Calculus.Deriv.Basic
import Mathlib.Analysis.SpecialFunctions.Trigonometric.Basic

namespace WxVerif.Spec.Trajectory

/-- `(lon s, lat s)`, for the times `a < s < b`, is the path of a parcel that moves on a sphere of radius `r` with the wind `(u, v)` (eastward
and northward, in length per time) and does not meet a pole. -/
def Parcel (r : ℝ) (wind : ℝ → ℝ → ℝ × ℝ) (a b : ℝ) (lon lat : ℝ → ℝ) : Prop :=
  ∀ s ∈ Set.Ioo a b, Real.cos (lat s) ≠ 0 ∧ HasDerivAt lon ((wind (lon s) (lat s)).1 / (r * Real.cos (lat s))) s ∧
    HasDerivAt lat ((wind (lon s) (lat s)).2 / r) s

/-- A quantity `f lon lat time` is carried by the wind: every parcel keeps its value. -/
def Carried (r : ℝ) (wind : ℝ → ℝ → ℝ × ℝ) (f : ℝ → ℝ → ℝ → ℝ) : Prop :=
  ∀ a b lon lat, Parcel r wind a b lon lat → ∀ s ∈ Set.Ioo a b, ∀ t ∈ Set.Ioo a b, f (lon s) (lat s) s = f (lon t) (lat t) t

end WxVerif.Spec.Trajectory
