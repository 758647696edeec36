import Mathlib.Data.Real.Basic

/-!
# Model of the step control of the Krylov exponential solvers

Sources: `wx_factory/solvers/kiops.py` (85–345) and `wx_factory/solvers/pmex.py` (58–372).

The arithmetic failures of `pmex` (`math.log` of 0 at 269 and 292) are not represented.  The Krylov process and the error estimate are represented by what they answer in each attempt (`Trial`); every answer is
allowed.  A stored row is represented by the time at which it holds the solution.  Exact arithmetic.
-/

namespace WxVerif.KrylovControl

/-- the arguments of a call; `keepM` distinguishes `pmex` (true) from `kiops` (false) -/
structure Par where
  tauOut : List ℝ
  mInit : ℤ
  mmin : ℤ
  mmax : ℤ
  delta : ℝ
  keepM : Bool

/-- `tau_out[-1]`; the empty array (an `IndexError` in the code) is represented by 0 -/
def Par.last (p : Par) : ℝ := p.tauOut.getLastD 0

/-- `tau_end` and `sgn` (`kiops.py` 97–99, `pmex.py` 63–65) -/
noncomputable def Par.tauEnd (p : Par) : ℝ := |p.last|
noncomputable def Par.sgn (p : Par) : ℝ := if 0 < p.last then 1 else if p.last < 0 then -1 else 0

/-- what happens in one attempt: the size at which the Krylov process breaks down, if it does; the error measure `omega`;
    the step sizes that the two power laws propose; the Krylov size that the logarithm proposes -/
structure Trial where
  breakdown : Option ℤ
  omega : ℝ
  tauLaw : ℝ
  tauLawMax : ℝ
  mLaw : ℤ

/-- the variables of the loop; `w` holds for every row the time of the solution stored there -/
structure St where
  tauNow : ℝ
  tau : ℝ
  m : ℤ
  j : ℤ
  l : Nat
  w : List (Option ℝ)
  step : Nat
  reject : Nat
  ireject : Nat

/-- the start (`kiops.py` 85–150, `pmex.py` 58–131): row 0 holds the initial value, the other rows are zero -/
noncomputable def init (p : Par) : St :=
  { tauNow := 0, tau := p.tauEnd, m := max p.mmin (min p.mInit p.mmax), j := 0, l := 0,
    w := (List.replicate p.tauOut.length none).set 0 (some 0), step := 0, reject := 0, ireject := 0 }

/-- the size reached by the orthogonalization and whether it broke down (`while j < m`: `kiops.py` 176–211, `pmex.py` 159–232) -/
def grow (j m : ℤ) (b : Option ℤ) : ℤ × Bool :=
  match b with
  | some b => if j < b ∧ b ≤ m then (b, true) else (max j m, false)
  | none => (max j m, false)

/-- `m_opt` (`kiops.py` 275–276, `pmex.py` 292–293): the integer parts of `3/4 m` and `4/3 m` -/
def mOpt (p : Par) (m mLaw : ℤ) : ℤ :=
  max p.mmin (min p.mmax (max (3 * m / 4) (min mLaw (-(-4 * m / 3)))))

/-- the new step and size when the process did not break down (`kiops.py` 264–288, `pmex.py` 281–308) -/
noncomputable def propose (p : Par) (s : St) (j : ℤ) (t : Trial) : ℝ × ℤ :=
  let remaining := if t.omega > p.delta then p.tauEnd - s.tauNow else p.tauEnd - (s.tauNow + s.tau)
  let sameTau := min remaining s.tau
  let tauOpt := min remaining (max (s.tau / 5) (min (5 * s.tau) t.tauLaw))
  if j = p.mmax then
    if t.omega > p.delta then (min (p.tauEnd - s.tauNow) (max (s.tau / 5) t.tauLawMax), j)
    else (tauOpt, s.m)
  else (sameTau, if p.keepM = true ∧ sameTau < s.tau then s.m else mOpt p s.m t.mLaw)

/-- `blownTs` (`kiops.py` 298–302, `pmex.py` 324–328) -/
noncomputable def blown (p : Par) (l : Nat) (nextT : ℝ) : Nat :=
  ((p.tauOut.drop l).filter fun t => decide (|t| < |nextT|)).length

/-- the rows stored by `for k in range(blownTs)` (`kiops.py` 308–311, `pmex.py` 334–337): row `l + k` gets the solution at
    `sgn tau_now + sgn (tau_out[l + k] - tau_now)` -/
noncomputable def phantoms (p : Par) (tauNow : ℝ) (l : Nat) : Nat → List (Option ℝ) → List (Option ℝ)
  | 0, w => w
  | n + 1, w =>
    let w := phantoms p tauNow l n w
    w.set (l + n) (some (p.sgn * tauNow + p.sgn * (p.tauOut.getD (l + n) 0 - tauNow)))

/-- the stores of an accepted step (`kiops.py` 297–317, `pmex.py` 323–343): new rows and new `l`; `none` is the `IndexError` -/
noncomputable def store (p : Par) (s : St) : Option (List (Option ℝ) × Nat) :=
  let n := blown p s.l (s.tauNow + s.tau)
  if s.l + n < s.w.length then
    let w := if n ≠ 0 then phantoms p s.tauNow s.l n (s.w.set (s.l + n) (s.w.getD s.l none)) else s.w
    some (w.set (s.l + n) (some (p.sgn * (s.tauNow + s.tau))), s.l + n)
  else none

/-- one pass of the loop (`kiops.py` 152–338, `pmex.py` 133–364) -/
noncomputable def pass (p : Par) (s : St) (t : Trial) : Option St :=
  let g := grow s.j s.m t.breakdown
  let new := if g.2 then (min (p.tauEnd - (s.tauNow + s.tau)) s.tau, s.m) else propose p s g.1 t
  if g.2 = true ∨ t.omega ≤ p.delta then
    (store p s).map fun r =>
      { tauNow := s.tauNow + s.tau, tau := new.1, m := new.2, j := 0, l := r.2, w := r.1, step := s.step + 1,
        reject := s.reject + s.ireject, ireject := 0 }
  else some { s with tau := new.1, m := new.2, j := g.1, ireject := s.ireject + 1 }

/-- the loop `while tau_now < tau_end` on a sequence of answers: the state before pass `n` (the state stays once the loop
    has ended) -/
noncomputable def after (p : Par) (trials : Nat → Trial) : Nat → Option St
  | 0 => some (init p)
  | n + 1 => (after p trials n).bind fun s => if s.tauNow < p.tauEnd then pass p s (trials n) else some s

end WxVerif.KrylovControl
