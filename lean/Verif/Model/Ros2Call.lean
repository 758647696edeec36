import Verif.Model.Calls

/-!
# Ros2 together with its linear solver

Source: `wx_factory/integrators/ros2.py`, `wx_factory/solvers/fgmres.py`.
-/

namespace WxVerif.Calls

open WxVerif.Gmres WxVerif.Schemes

variable {ι : Type} [Fintype ι]

/-- `Ros2.__step__` with FGMRES on all processes (`integrators/ros2.py` 24–81 with `linear_solver = fgmres`, the first guess being the state), seen by process
    `q`; `D` is the preconditioner.  `none` is an exception or a call that never ends. -/
noncomputable def ros2Step {P : Type*} (eps tol : ℝ) (restart len maxiter : Nat) (tri : Nat → Small → Option (Nat → ℝ)) (D : EuclideanSpace ℝ ι → EuclideanSpace ℝ ι)
    (stag : P → EuclideanSpace ℝ ι → EuclideanSpace ℝ ι → Prop) (q : P) (rhs : EuclideanSpace ℝ ι → EuclideanSpace ℝ ι) (Q : EuclideanSpace ℝ ι) (dt : ℝ) :
    Option (EuclideanSpace ℝ ι) :=
  let A := matvecRat eps rhs Q dt
  let b := A Q + dt • rhs Q
  match fgmresAll A b Q tol restart len maxiter false (runCycle A D (tol * ‖b‖) restart tri) stag with
  | .answers a => some (a q).x
  | _ => none

end WxVerif.Calls
