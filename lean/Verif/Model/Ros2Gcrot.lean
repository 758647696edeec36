import Verif.Model.Gcrot
import Verif.Model.Schemes

/-!
# Ros2 with the linear solver GCROT

Source: `wx_factory/integrators/ros2.py` 24–81 (branch `linear_solver` not "fgmres"), `wx_factory/solvers/gcrot.py`.
-/

namespace WxVerif.Gcrot

open WxVerif.Schemes

variable {W : Type*} [NormedAddCommGroup W] [InnerProductSpace ℝ W]

/-- `Ros2.__step__` with GCROT (`ros2.py` 24–31, 63–64): the call has the default values `m = 20`, `k = m` and `maxiter = 1000`, no preconditioner, and starts from the
    state.  `cu` are the vectors that the last call left in the function attribute `gcrot.CU`; the answer is the new value of the attribute with the new state.
    One process. -/
noncomputable def ros2Step (e : Ext W) (eps tol : ℝ) (rhs : W → W) (cu : List (Option W × W)) (Q : W) (dt : ℝ) : Option (List (Option W × W) × W) :=
  (gcrot e (matvecRat eps rhs Q dt) id 20 20 1000 cu (matvecRat eps rhs Q dt Q + dt • rhs Q) Q tol).map fun a => (a.kept, a.x)

/-- a run of Ros2 with GCROT in a fresh process -/
noncomputable def ros2Run (e : Ext W) (eps tol : ℝ) (rhs : W → W) (dts : Nat → ℝ) (Q0 : W) : Nat → Option (List (Option W × W) × W)
  | 0 => some ([], Q0)
  | n + 1 => (ros2Run e eps tol rhs dts Q0 n).bind fun s => ros2Step e eps tol rhs s.1 s.2 (dts n)

end WxVerif.Gcrot
