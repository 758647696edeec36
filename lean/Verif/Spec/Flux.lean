/-
Small specification for the numerical fluxes (C45, C46): the physical fluxes of the equations, independent of any numerical scheme.
-/
import Mathlib.Data.Real.Basic

namespace WxVerif.Spec.Flux

/-- Flux of conserved quantity number `i` in direction `d` (0, 1, 2) of the compressible Euler equations in curvilinear coordinates:
the quantity transported by the contravariant velocity, plus the pressure for the three momenta (quantities 1, 2, 3).  Quantity 0 is
the density, quantity 4 the potential temperature, higher numbers are tracers.  `q` holds densities (mass, momenta, …), `p` is the
pressure, `h` the contravariant metric and `sqrtG` the volume element. -/
noncomputable def euler3 (d : Nat) (sqrtG : ℝ) (h : Nat → Nat → ℝ) (p : ℝ) (q : Nat → ℝ) (i : Nat) : ℝ :=
  sqrtG * (q (d + 1) / q 0 * q i + if 1 ≤ i ∧ i ≤ 3 then h d (i - 1) * p else 0)

/-- Flux of quantity `i` (0 density, 1 and 2 momenta, 3 potential temperature) in direction `d` (0 or 1) of the Euler equations in
Cartesian coordinates. -/
noncomputable def euler2 (d : Nat) (p : ℝ) (q : Nat → ℝ) (i : Nat) : ℝ :=
  q (d + 1) / q 0 * q i + if i = d + 1 then p else 0

/-- Flux of quantity `i` (0 depth, 1 and 2 momenta) in direction `d` (0 or 1) of the shallow-water equations in curvilinear
coordinates; `g` is the gravity. -/
noncomputable def shallow (g : ℝ) (d : Nat) (sqrtG : ℝ) (H : Nat → Nat → ℝ) (q : Nat → ℝ) (i : Nat) : ℝ :=
  sqrtG * (q (d + 1) / q 0 * q i + if 1 ≤ i then H (i - 1) d * (g / 2 * q 0 ^ 2) else 0)

/-- Sign of quantity `i` under the reflection of direction `d`: the momentum along `d` changes sign, nothing else does. -/
def sign (d i : Nat) : ℝ := if i = d + 1 then -1 else 1

/-- Reflection of a list of densities in direction `d`. -/
def mirror (d : Nat) (q : Nat → ℝ) (i : Nat) : ℝ := sign d i * q i

/-- Reflection of the metric: entries with exactly one index along `d` change sign. -/
def mirrorMetric (d : Nat) (h : Nat → Nat → ℝ) (j k : Nat) : ℝ := if (j = d) = (k = d) then h j k else -h j k

end WxVerif.Spec.Flux

