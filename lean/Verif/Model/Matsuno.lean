import Mathlib.Analysis.SpecialFunctions.Pow.Real
import Mathlib.Analysis.SpecialFunctions.Complex.Log
import Mathlib.Analysis.SpecialFunctions.Trigonometric.Basic

/-!
# The Matsuno test case (equatorial waves)

Model of `init/matsuno.py` and of the loop of `case_matsuno` in `init/shallow_water_test.py`.

Floating-point numbers are real numbers, Python's complex numbers are complex numbers, and `z ** p` on complex
numbers is the principal power (`numpy` and CPython compute `exp (p log z)` with the principal logarithm; the base of
the square root has imaginary part `+0.0`, so it lies on the upper side of the cut, which is the principal value).
The checks that the arguments are scalars and integers (lines 75-86, 129-133) are the types `ℕ` and `ℝ`.
-/

namespace WxVerif.Model.Matsuno

open Complex

/-- The dictionary of planetary parameters — `matsuno.py` 7-12, 15-42.  A missing key raises `KeyError`; here all
four are always present. -/
structure Planet where
  OMEGA : ℝ
  G : ℝ
  A : ℝ
  H0 : ℝ

/-- `Earth` — `matsuno.py` 7-12. -/
noncomputable def earth : Planet := ⟨7.29212e-5, 9.80616, 6371220, 30⟩

/-- `delta0` — `matsuno.py` 96. -/
noncomputable def delta0 (P : Planet) (k n : ℕ) : ℝ :=
  3 * (P.G * P.H0 * (k / P.A) ^ 2 + 2 * P.OMEGA * (P.G * P.H0) ^ (0.5 : ℝ) / P.A * (2 * n + 1))

/-- `delta4` — `matsuno.py` 97. -/
noncomputable def delta4 (P : Planet) (k : ℕ) : ℝ := -54 * P.OMEGA * P.G * P.H0 * k / P.A ^ 2

/-- `deltaj` at the end of one pass of the loop — `matsuno.py` 100-102. -/
noncomputable def deltaj (P : Planet) (k n j : ℕ) : ℂ :=
  let d := ((delta4 P k : ℂ) ^ 2 - 4 * (delta0 P k n : ℂ) ^ 3 + 0 * I) ^ (0.5 : ℂ)
  let d := (0.5 * ((delta4 P k : ℂ) + d)) ^ (1 / 3 : ℂ)
  d * exp (2 * Real.pi * I * j / 3)

/-- `omegaj[0, j - 1]` — `matsuno.py` 104. -/
noncomputable def omegaj (P : Planet) (k n j : ℕ) : ℝ :=
  (-1 / 3 * (deltaj P k n j + delta0 P k n / deltaj P k n j) : ℂ).re

/-- The names of the wave types — `matsuno.py` 107. -/
inductive Wave where
  | Rossby
  | WIG
  | EIG

/-- The value of the dictionary `omega` for a wave type — `matsuno.py` 107. -/
noncomputable def omega (P : Planet) (k n : ℕ) : Wave → ℝ
  | .Rossby => -min |omegaj P k n 1| (min |omegaj P k n 2| |omegaj P k n 3|)
  | .WIG => min (omegaj P k n 1) (min (omegaj P k n 2) (omegaj P k n 3))
  | .EIG => max (omegaj P k n 1) (max (omegaj P k n 2) (omegaj P k n 3))

/-- What a call may do: return a value or raise. -/
inductive Result (α : Type) where
  | value (a : α)
  | valueError
  | keyError

/-- `_eval_omega(k, n)[wave_type]` as used by the callers — `matsuno.py` 87-108, 264-268, 345-348: wave numbers
below one raise `ValueError`, a name that is not a key of the dictionary raises `KeyError`. -/
noncomputable def evalOmega (P : Planet) (k n : ℕ) (waveType : String) : Result ℝ :=
  if k < 1 then .valueError
  else if n < 1 then .valueError
  else if waveType = "Rossby" then .value (omega P k n .Rossby)
  else if waveType = "WIG" then .value (omega P k n .WIG)
  else if waveType = "EIG" then .value (omega P k n .EIG)
  else .keyError

/-- `_eval_hermite_polynomial(x, n)` — `matsuno.py` 136-146.  The branch `n < 0` is never taken here: the callers
pass `n - 1`, `n` and `n + 1` with `n ≥ 1`. -/
noncomputable def hermite (x : ℝ) : ℕ → ℝ
  | 0 => 1 / Real.pi ^ (0.25 : ℝ)
  | 1 => (4 / Real.pi) ^ (0.25 : ℝ) * x
  | n + 2 => (2 / ((n + 2 : ℕ) : ℝ)) ^ (0.5 : ℝ) * x * hermite x (n + 1) -
      ((((n + 2 : ℕ) : ℝ) - 1) / ((n + 2 : ℕ) : ℝ)) ^ (0.5 : ℝ) * hermite x n

/-- `_eval_meridional_velocity(lat, Lamb, n, amp)` — `matsuno.py` 182-190. -/
noncomputable def meridional (lat lamb : ℝ) (n : ℕ) (amp : ℝ) : ℝ :=
  let y := lamb ^ (0.25 : ℝ) * lat
  let ex := Real.exp (-0.5 * y ^ 2)
  amp * ex * hermite y n

/-- Lamb's parameter — `matsuno.py` 260. -/
noncomputable def lamb (P : Planet) : ℝ := (2 * P.OMEGA * P.A) ^ 2 / (P.G * P.H0)

/-- The names of the fields — `matsuno.py` 276-297. -/
inductive Field where
  | v
  | u
  | phi

/-- The factor in front of the amplitudes of `u` and `phi` — `matsuno.py` 284, 292. -/
noncomputable def prefactor (P : Planet) (k : ℕ) (w : ℝ) : ℂ :=
  P.G * P.H0 * ((lamb P ^ (0.25 : ℝ) : ℝ) : ℂ) / (I * P.A * (w ^ 2 - P.G * P.H0 * (k / P.A) ^ 2))

/-- `_eval_field_amplitudes` once the frequency `w` is known — `matsuno.py` 269-297. -/
noncomputable def amplitude (P : Planet) (lat : ℝ) (k n : ℕ) (amp : ℝ) (field : Field) (w : ℝ) : ℂ :=
  let vHat := meridional lat (lamb P) n amp
  let vPlus := meridional lat (lamb P) (n + 1) amp
  let vMinus := meridional lat (lamb P) (n - 1) amp
  let c := (P.G * P.H0) ^ (0.5 : ℝ)
  match field with
  | .v => vHat
  | .u =>
    prefactor P k w * ((-(((n + 1) / 2 : ℝ) ^ (0.5 : ℝ)) * (w / c + k / P.A) * vPlus
      - ((n / 2 : ℝ) ^ (0.5 : ℝ)) * (w / c - k / P.A) * vMinus : ℝ) : ℂ)
  | .phi =>
    prefactor P k w * ((-(((n + 1) / 2 : ℝ) ^ (0.5 : ℝ)) * (w + c * k / P.A) * vPlus
      + ((n / 2 : ℝ) ^ (0.5 : ℝ)) * (w - c * k / P.A) * vMinus : ℝ) : ℂ)

/-- `eval_field` once the frequency is known — `matsuno.py` 350-364. -/
noncomputable def fieldAt (P : Planet) (lat lon time : ℝ) (k n : ℕ) (amp : ℝ) (field : Field) (w : ℝ) : ℝ :=
  let f := (exp (I * (k * lon - w * time)) * amplitude P lat k n amp field w).re
  match field with
  | .phi => f + P.G * P.H0
  | _ => f

/-- `eval_field` — `matsuno.py` 300-366. -/
noncomputable def evalField (P : Planet) (lat lon time : ℝ) (k n : ℕ) (amp : ℝ) (field : Field)
    (waveType : String) : Result ℝ :=
  match evalOmega P k n waveType with
  | .value w => .value (fieldAt P lat lon time k n amp field w)
  | .valueError => .valueError
  | .keyError => .keyError

/-- The three numbers that `case_matsuno` computes at a point of the grid: the wind towards the east and towards the
north and the depth — `shallow_water_test.py` 368-389 (`k = 5`, `n = 1`, time zero; `gravity` is the constant of
`common/definitions.py`, which equals `Earth["gravitational_acceleration"]`).  The array `h_analytic` is computed and
never used, and is left out. -/
noncomputable def caseMatsuno (gravity lat lon amp : ℝ) (waveType : String) : Result (ℝ × ℝ × ℝ) :=
  match evalField earth lat lon 0 5 1 amp .phi waveType with
  | .value p =>
    match evalField earth lat lon 0 5 1 amp .u waveType, evalField earth lat lon 0 5 1 amp .v waveType with
    | .value u, .value v => .value (u, v, p / gravity)
    | _, _ => .keyError
  | .valueError => .valueError
  | .keyError => .keyError

end WxVerif.Model.Matsuno
