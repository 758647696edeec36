import Verif.Spec.Assembly
import Verif.Model.Factorization

/-!
# Specification: what it means to precondition with the system of a step
-/

namespace WxVerif.SpecFactorization

open WxVerif.Assembly WxVerif.Factorization

variable {R : Type} [CommRing R]

/-- the vector `x` of process `r`, zero on the other processes -/
def only (r : Nat) (x : Nat → R) : Nat → Nat → R := fun a j => if a = r then x j else 0

/-- `solve` solves the part of the system `mv` that belongs to process `r`: applied to the result, the operator gives back the vector, on the `n`
values of the process -/
def SolvesPart (mv : Operator R) (r n : Nat) (solve : (Nat → R) → Except String (Nat → R)) : Prop :=
  ∀ v, ∃ x, solve v = .ok x ∧ ∀ i, i < n → mv (only r x) r i = v i

/-- the part of process `r` is regular: every vector is the image of one vector only -/
def Regular (mv : Operator R) (r n : Nat) : Prop :=
  (∀ v : Nat → R, ∃ x, ∀ i, i < n → mv (only r x) r i = v i) ∧
  ∀ x y : Nat → R, (∀ i, i < n → mv (only r x) r i = mv (only r y) r i) → ∀ i, i < n → x i = y i

/-- product of a square matrix with a vector -/
def mulVec (m : Mat R) (x : Nat → R) (i : Nat) : R := ∑ j ∈ Finset.range m.cols, m.entry i j * x j

/-- `splu` does what its documentation says: regular matrices get a solver -/
def Correct (lib : Library R) : Prop :=
  ∀ m : Mat R, m.rows = m.cols → (∀ v : Nat → R, ∃ x, ∀ i, i < m.rows → mulVec m x i = v i) →
    (∀ x y : Nat → R, (∀ i, i < m.rows → mulVec m x i = mulVec m y i) → ∀ i, i < m.rows → x i = y i) →
    ∃ s, lib.splu m = .ok s ∧ ∀ v i, i < m.rows → mulVec m (s v) i = v i

/-- the runs of the history and the present run -/
def allRuns (H : List (Event R)) (r : Run R) : List (Run R) := H.map Event.theRun ++ [r]

/-- no process was killed while it saved its matrix -/
def NoKill (H : List (Event R)) : Prop := ∀ e ∈ H, ∃ r, e = .run r

end WxVerif.SpecFactorization
