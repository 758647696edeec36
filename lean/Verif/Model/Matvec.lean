/-
Model of the Jacobian-vector products of `wx_factory/solvers/matvec.py`, with the complex-step method, and of one numerical flux evaluated
on complex states, which is what the complex-step method feeds to the right-hand side.

Exact arithmetic.  A state is a function of an index (the flattened array); `reshape` and `flatten` are the identity on it.
-/
import Mathlib.Analysis.SpecialFunctions.Complex.Log
import Mathlib.Analysis.SpecialFunctions.Pow.Complex
import Verif.Model.Flux

namespace WxVerif.Matvec

open Complex WxVerif.Flux

variable {ι : Type*}

/-- `math.sqrt(numpy.finfo(float).eps)`: the square root of 2⁻⁵² — `solvers/matvec.py` 58 -/
noncomputable def epsComplex : ℝ := 2⁻¹ ^ 26

/-- `math.sqrt(numpy.finfo(numpy.float32).eps)`: the square root of 2⁻²³ — `solvers/matvec.py` 63, 84.  The rounding of the square root to a
double is not modelled. -/
noncomputable def epsFd : ℝ := Real.sqrt (2⁻¹ ^ 23)

/-- the complex-step branch of `matvec_fun` — `solvers/matvec.py` 56-60; `F` is the right-hand side on complex arrays -/
noncomputable def complexStep (eps : ℝ) (F : (ι → ℂ) → ι → ℂ) (Q : ι → ℝ) (dt : ℝ) (v : ι → ℝ) (i : ι) : ℝ :=
  dt * (F (fun j => (Q j : ℂ) + I * (eps : ℂ) * (v j : ℂ)) i / (eps : ℂ)).im

/-- the finite-difference branch of `matvec_fun` — `solvers/matvec.py` 61-65; `rhs` is the right-hand side already evaluated at `Q` -/
noncomputable def finiteDiff (eps : ℝ) (f : (ι → ℝ) → ι → ℝ) (Q rhs : ι → ℝ) (dt : ℝ) (v : ι → ℝ) (i : ι) : ℝ :=
  dt * (f (fun j => Q j + eps * v j) i - rhs i) / eps

/-- `matvec_fun` — `solvers/matvec.py` 36-67: any `method` other than "complex" is finite differences -/
noncomputable def matvecFun (method : String) (F : (ι → ℂ) → ι → ℂ) (f : (ι → ℝ) → ι → ℝ) (Q rhs : ι → ℝ) (dt : ℝ) (v : ι → ℝ) : ι → ℝ :=
  if method = "complex" then complexStep epsComplex F Q dt v else finiteDiff epsFd f Q rhs dt v

/-- `matvec_rat` — `solvers/matvec.py` 75-88 -/
noncomputable def matvecRat (f : (ι → ℝ) → ι → ℝ) (Q rhs : ι → ℝ) (dt : ℝ) (v : ι → ℝ) (i : ι) : ℝ :=
  v i - 0.5 * finiteDiff epsFd f Q rhs dt v i

/-! ## The Rusanov flux along x1 on complex states -/

/-- `numpy.abs` of a complex number: its modulus, a real number -/
noncomputable def cabs (z : ℂ) : ℂ := (‖z‖ : ℂ)

/-- `numpy.maximum` of complex numbers: lexicographic, real parts first -/
noncomputable def cmax (a b : ℂ) : ℂ := if a.re < b.re ∨ (a.re = b.re ∧ a.im < b.im) then b else a

/-- `numpy.minimum` of complex numbers -/
noncomputable def cmin (a b : ℂ) : ℂ := if b.re < a.re ∨ (b.re = a.re ∧ b.im < a.im) then b else a

/-- principal square root, `numpy.sqrt` of a complex number -/
noncomputable def csqrt (z : ℂ) : ℂ := z ^ (1 / 2 : ℂ)

/-- what the flux function reads on one side of a face; the metric stays real -/
structure Side3C where
  var : Nat → ℂ
  pres : ℂ
  vel : ℂ
  sqrtG : ℝ
  h : Nat → Nat → ℝ

/-- Component `i` of the flux along x1 on complex states — `wx_factory/pde/fluxes.py` `rusanov_3d_hori_i_new` 342-393: the same source
lines as `Flux.rusanovHoriI`, read with complex operands.  The outputs `wflux_*` are left out. -/
noncomputable def rusanovC (advectionOnly : Bool) (l r : Side3C) (i : Nat) : ℂ :=
  let eigL := if advectionOnly then cabs l.vel else cabs l.vel + csqrt (l.h 0 0 * heatCapacityRatio * l.pres / l.var 0)
  let eigR := if advectionOnly then cabs r.vel else cabs r.vel + csqrt (r.h 0 0 * heatCapacityRatio * r.pres / r.var 0)
  let eig := cmax eigL eigR
  let fluxL : Nat → ℂ := fun i => l.sqrtG * l.vel * l.var i
  let fluxR : Nat → ℂ := fun i => r.sqrtG * r.vel * r.var i
  let fluxL : Nat → ℂ := fun i => if i = 1 then fluxL i + l.sqrtG * l.h 0 0 * l.pres else
    if i = 2 then fluxL i + l.sqrtG * l.h 0 1 * l.pres else if i = 3 then fluxL i + l.sqrtG * l.h 0 2 * l.pres else fluxL i
  let fluxR : Nat → ℂ := fun i => if i = 1 then fluxR i + r.sqrtG * r.h 0 0 * r.pres else
    if i = 2 then fluxR i + r.sqrtG * r.h 0 1 * r.pres else if i = 3 then fluxR i + r.sqrtG * r.h 0 2 * r.pres else fluxR i
  0.5 * (fluxL i + fluxR i - eig * l.sqrtG * (r.var i - l.var i))

/-- a real side of a face as a complex one -/
noncomputable def Side3C.ofReal (s : Side3) : Side3C := ⟨fun i => s.var i, s.pres, s.vel, s.sqrtG, s.h⟩

end WxVerif.Matvec
