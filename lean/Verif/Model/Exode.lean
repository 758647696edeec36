import Verif.Spec.RungeKutta

/-!
# Model of `exode`: the combination of φ functions by an adaptive Runge-Kutta method

Source: `wx_factory/solvers/exode.py`.  The embedded Runge-Kutta solver is the one of Model/RungeKutta.lean.  The function attribute
`exode.first_step`, which survives between calls, is an explicit argument and result.  Exact real arithmetic; the only special value kept is
`nan`, the median of an empty array.
-/

namespace WxVerif.Exode

open WxVerif.RungeKutta

variable {V : Type*} [AddCommGroup V] [Module ℝ V]

/-- the zero row added when there is a single vector — `exode.py` 28-36: `u` has the length of the array, which is 1, and not that of a row,
so `row_stack` raises unless rows have length 1 -/
def prepare (n : Nat) (u : List V) : Option (List V) :=
  if u.length = 1 then (if n = 1 then some (u ++ [0]) else none) else some u

/-- `fun` — `exode.py` 40-44 -/
noncomputable def field (A : V → V) (u : List V) (t : ℝ) (x : V) : V :=
  A x + ∑ j ∈ Finset.range (u.length - 1), (t ^ j / (j.factorial : ℝ)) • u.getD (j + 1) 0

/-- the solver of a call — `exode.py` 53-64: the tableau, tolerances and controller are those of `base`, the time interval is [0, 1] -/
noncomputable def problem (base : Problem V) (A : V → V) (u : List V) : Problem V := { base with f := field A u, tBound := 1 }

/-- the loop — `exode.py` 68-114: initial solver, times appended to `ts`, final solver -/
inductive Loop (p : Problem V) : Solver V → List ℝ → Solver V → Prop
  | finished {s s'} : Next p s s' → s'.status = .finished → Loop p s [s'.t] s'
  | failed {s s'} : Next p s s' → s'.status = .failed → Loop p s [] s'
  | more {s s' ts s''} : Next p s s' → s'.status = .running → Loop p s' ts s'' → Loop p s (s'.t :: ts) s''

/-- `numpy.diff` -/
noncomputable def diffs (ts : List ℝ) : List ℝ := List.zipWith (fun a b => b - a) ts ts.tail

open Classical in
/-- `numpy.median`, `none` for `nan` -/
noncomputable def median (l : List ℝ) : Option ℝ :=
  let s := l.mergeSort (fun a b => decide (a ≤ b))
  if l = [] then none
  else if l.length % 2 = 1 then some (s.getD (l.length / 2) 0)
  else some ((s.getD (l.length / 2 - 1) 0 + s.getD (l.length / 2) 0) / 2)

/-- the function attribute `exode.first_step` -/
inductive Memory where
  | unset
  | value (h : ℝ)
  | nan

/-- the first step of a call — `exode.py` 24-25, 62 -/
def firstStep (tauOut : ℝ) : Memory → Option ℝ
  | .unset => some tauOut
  | .value h => some h
  | .nan => none

/-- the attribute after a call — `exode.py` 130 -/
noncomputable def remember (ts : List ℝ) : Memory :=
  match median (diffs (0 :: ts)) with
  | some h => .value h
  | none => .nan

/-- A call that returns: the returned vector and the new attribute — `exode.py` 9-132.  With a `nan` first step both tests of the constructor are
false, the first error norm is `nan` and the solver fails at once. -/
inductive Call (base : Problem V) (A : V → V) (u : List V) (tauOut : ℝ) : Memory → V → Memory → Prop
  | run {mem h s0 ts s} : firstStep tauOut mem = some h → construct (problem base A u) 0 (u.getD 0 0) h = some s0 →
      Loop (problem base A u) s0 ts s → Call base A u tauOut mem s.y (remember ts)
  | nan : Call base A u tauOut .nan (u.getD 0 0) (remember [])

end WxVerif.Exode
