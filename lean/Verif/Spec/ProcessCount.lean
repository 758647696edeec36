import Verif.Spec.Decomposition
import Mathlib.Analysis.InnerProductSpace.PiL2

/-!
# Specification: the state of a run as one vector, whatever the number of processes
-/

namespace WxVerif.Spec.ProcessCount

open WxVerif.ShallowWater (Grid Field Topography)
open WxVerif.EulerSphere (Atm Field3 Floor ForcingData)
open WxVerif.Spec.Decomposition

/-- the numbers a decomposition holds: process, element row, element column, variable, point -/
abbrev Points (g : Grid) := Fin (6 * (g.k * g.k)) × Fin g.N × Fin g.N × Fin 3 × Fin (g.n * g.n)

/-- a state of the shallow-water model -/
abbrev State (g : Grid) := EuclideanSpace ℝ (Points g)

/-- the state as the arrays of the processes, zero outside -/
def toField (g : Grid) (q : State g) : Field := fun r ej ei v c =>
  if h : r < 6 * (g.k * g.k) ∧ ej < g.N ∧ ei < g.N ∧ v < 3 ∧ c < g.n * g.n then
    q (⟨r, h.1⟩, ⟨ej, h.2.1⟩, ⟨ei, h.2.2.1⟩, ⟨v, h.2.2.2.1⟩, ⟨c, h.2.2.2.2⟩) else 0

/-- the arrays as a state -/
def ofField (g : Grid) (Q : Field) : State g := WithLp.toLp 2 fun i => Q i.1 i.2.1 i.2.2.1 i.2.2.2.1 i.2.2.2.2

/-- the right-hand side of the model on states -/
noncomputable def tendency (g : Grid) (t : Topography) (q : State g) : State g := ofField g (ShallowWater.rhs g t (toField g q))

/-- the two indices stand for the same variable at the same point of the same element of the sphere -/
def SamePoint (g g' : Grid) (i : Points g) (i' : Points g') : Prop :=
  SameElement g g' i.1 i.2.1 i.2.2.1 i'.1 i'.2.1 i'.2.2.1 ∧ (i.2.2.2.1 : Nat) = i'.2.2.2.1 ∧ (i.2.2.2.2 : Nat) = i'.2.2.2.2

/-- two states, on different numbers of processes, with the same values at every point of the sphere -/
def SameState (g g' : Grid) (q : State g) (q' : State g') : Prop := ∀ i i', SamePoint g g' i i' → q i = q' i'

/-- the 3D model: process, level, element row, element column, variable, point -/
abbrev Points3 (g : Atm) := Fin (6 * (g.k * g.k)) × Fin g.nz × Fin g.N × Fin g.N × Fin 5 × Fin (g.n * g.n * g.n)

/-- a state of the 3D model -/
abbrev State3 (g : Atm) := EuclideanSpace ℝ (Points3 g)

/-- the state as the arrays of the processes, zero outside -/
def toField3 (g : Atm) (q : State3 g) : Field3 := fun r ek ej ei v c =>
  if h : r < 6 * (g.k * g.k) ∧ ek < g.nz ∧ ej < g.N ∧ ei < g.N ∧ v < 5 ∧ c < g.n * g.n * g.n then
    q (⟨r, h.1⟩, ⟨ek, h.2.1⟩, ⟨ej, h.2.2.1⟩, ⟨ei, h.2.2.2.1⟩, ⟨v, h.2.2.2.2.1⟩, ⟨c, h.2.2.2.2.2⟩) else 0

/-- the arrays as a state -/
def ofField3 (g : Atm) (Q : Field3) : State3 g := WithLp.toLp 2 fun i => Q i.1 i.2.1 i.2.2.1 i.2.2.2.1 i.2.2.2.2.1 i.2.2.2.2.2

/-- the right-hand side of the 3D model on states -/
noncomputable def tendency3 (g : Atm) (f : Floor) (F : ForcingData) (q : State3 g) : State3 g := ofField3 g (EulerSphere.rhs g f (toField3 g q) F)

/-- the two indices stand for the same variable at the same point of the same element of the sphere -/
def SamePoint3 (g g' : Atm) (i : Points3 g) (i' : Points3 g') : Prop :=
  SameElement g.toGrid g'.toGrid i.1 i.2.2.1 i.2.2.2.1 i'.1 i'.2.2.1 i'.2.2.2.1 ∧ (i.2.1 : Nat) = i'.2.1 ∧ (i.2.2.2.2.1 : Nat) = i'.2.2.2.2.1 ∧
    (i.2.2.2.2.2 : Nat) = i'.2.2.2.2.2

/-- two 3D states, on different numbers of processes, with the same values at every point -/
def SameState3 (g g' : Atm) (q : State3 g) (q' : State3 g') : Prop := ∀ i i', SamePoint3 g g' i i' → q i = q' i'

end WxVerif.Spec.ProcessCount
