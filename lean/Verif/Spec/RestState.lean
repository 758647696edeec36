import Verif.Model.EulerSphere
import Verif.Model.ShallowWater

/-!
# An atmosphere and an ocean at rest
-/

namespace WxVerif.Spec.RestState

open WxVerif.EulerSphere

/-- All points of the grid: process, level, row, column, solution point. -/
def OnGrid3 (g : Atm) (r ek ej ei c : Nat) : Prop := r < 6 * g.k ^ 2 ∧ ek < g.nz ∧ ej < g.N ∧ ei < g.N ∧ c < g.n * g.n * g.n

/-- No momentum anywhere, and potential temperature density `Θ` (hence the pressure) the same everywhere.  The density is arbitrary. -/
def AtRest (g : Atm) (Q : Field3) (Θ : ℝ) : Prop :=
  ∀ r ek ej ei c, OnGrid3 g r ek ej ei c →
    Q r ek ej ei 1 c = 0 ∧ Q r ek ej ei 2 c = 0 ∧ Q r ek ej ei 3 c = 0 ∧ Q r ek ej ei 4 c = Θ

/-- The density is the same everywhere, too. -/
def UniformDensity (g : Atm) (Q : Field3) (ρ : ℝ) : Prop := ∀ r ek ej ei c, OnGrid3 g r ek ej ei c → Q r ek ej ei 0 c = ρ

open WxVerif.ShallowWater in
/-- A layer of water without momentum; its depth is arbitrary. -/
def StillWater (g : Grid) (Q : Field) : Prop :=
  ∀ r < 6 * g.k ^ 2, ∀ ej < g.N, ∀ ei < g.N, ∀ c < g.n * g.n, Q r ej ei 1 c = 0 ∧ Q r ej ei 2 c = 0

open WxVerif.ShallowWater in
/-- Depth `H` everywhere. -/
def UniformDepth (g : Grid) (Q : Field) (H : ℝ) : Prop :=
  ∀ r < 6 * g.k ^ 2, ∀ ej < g.N, ∀ ei < g.N, ∀ c < g.n * g.n, Q r ej ei 0 c = H

end WxVerif.Spec.RestState
