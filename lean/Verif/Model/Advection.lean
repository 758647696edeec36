/-
Model of the pure-advection switch of the 3D model: the number of equations of the initial state, the arrays of the right-hand side
and the zeroing of the dynamical tendencies.
-/
import Mathlib.Data.Real.Basic

namespace WxVerif.Advection

/-- Number of equations of the state built by `initialize_euler`, `none` if it raises `ValueError` for the case number —
`wx_factory/init/initialize.py` 91-114.  (Case 20 raises `TypeError` later on, inside `dcmip_steady_state_mountain`; see C49.) -/
def numEquations (caseNumber : Int) : Option Nat :=
  if caseNumber = 11 then some 9
  else if caseNumber = 12 then some 6
  else if caseNumber = 20 ∨ caseNumber = 21 ∨ caseNumber = 22 ∨ caseNumber = 31 ∨ caseNumber = 77 then some 5
  else none

/-- Number of variables the 3D equations declare — `wx_factory/pde/pde_euler_cubesphere.py` 58-67 (the literal `5` passed to
`PDE.__init__`), `wx_factory/rhs/rhs.py` 38. -/
def numVar : Nat := 5

/-- `pde.advection_only` — `pde_euler_cubesphere.py` 70. -/
def advectionOnly (caseNumber : Int) : Bool := caseNumber < 13

/-- Whether NumPy accepts `a[...] = b` when the leading axes have the given lengths and the others agree: equal lengths, or a
source axis of length one. -/
def assignable (dst src : Nat) : Bool := dst = src || src = 1

/-- `forcing_terms` of the 3D right-hand side, acting on the tendencies left by the equations (`rhs` by variable and point) —
`wx_factory/rhs/rhs_dfr.py` 304-313. -/
def forcingTerms (caseNumber : Int) (rhs : Nat → Nat → ℝ) : Nat → Nat → ℝ :=
  if advectionOnly caseNumber then fun v p => if v = 0 ∨ v = 1 ∨ v = 2 ∨ v = 3 ∨ v = 4 then 0 else rhs v p else rhs

/-- One evaluation of the right-hand side of the 3D model on a state of `n` equations: `none` if it raises.  The interface values
(`n` equations) are copied into arrays of `numVar` equations (`rhs_dfr.py` 207-209, 238-240, 257-259); `tendency` stands for the
tendencies computed from there on, before `forcing_terms` (`wx_factory/rhs/rhs.py` 75-122). -/
def evaluate (caseNumber : Int) (n : Nat) (tendency : Nat → Nat → ℝ) : Option (Nat → Nat → ℝ) :=
  if assignable numVar n then some (forcingTerms caseNumber tendency) else none

end WxVerif.Advection
