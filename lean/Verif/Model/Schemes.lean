import Mathlib.Algebra.Module.Basic
import Mathlib.Algebra.Field.Defs
import Mathlib.Algebra.Order.Field.Basic

/-!
# Model of the one-step and two-step integrators

Sources: `wx_factory/integrators/{euler1,tvdrk3,backward_euler,crank_nicolson,bdf2,sdirk,imex2,ros2,rosexp2,partrosexp2,
splitting}.py`, `wx_factory/solvers/matvec.py` (finite-difference products).

Exact arithmetic over a field `K`, states in a vector space `V`.  The nonlinear solver `newton_krylov`, the linear
solver `fgmres` and the exponential solver `pmex` are parameters.
-/

namespace WxVerif.Schemes

variable {K : Type*} {V : Type*} [Field K] [AddCommGroup V] [Module K V]

/-- `Euler1.__step__` (`integrators/euler1.py` 10–12) -/
def euler1 (rhs : V → V) (Q : V) (dt : K) : V := Q + dt • rhs Q

/-- `Tvdrk3.__step__` (`integrators/tvdrk3.py` 12–19) -/
def tvdrk3 (rhs : V → V) (Q : V) (dt : K) : V :=
  let Q1 := Q + dt • rhs Q
  let Q2 := (3 / 4 : K) • Q + (1 / 4 : K) • Q1 + ((1 / 4 : K) * dt) • rhs Q1
  (1 / 3 : K) • Q + (2 / 3 : K) • Q2 + ((2 / 3 : K) * dt) • rhs Q2

/-- A nonlinear solver: function and first guess to an approximate zero (`solvers/nonlin.py` 12–121). -/
abbrev Newton (V : Type*) := (V → V) → V → V

/-- `BackwardEuler.__step__` (`integrators/backward_euler.py` 20–44) -/
def backwardEuler (newton : Newton V) (rhs : V → V) (Q : V) (dt : K) : V :=
  newton (fun Qp => dt⁻¹ • (Qp - Q) - rhs Qp) Q

/-- `CrankNicolson.__step__` (`integrators/crank_nicolson.py` 14–41) -/
def crankNicolson (newton : Newton V) (rhs : V → V) (Q : V) (dt : K) : V :=
  newton (fun Qp => dt⁻¹ • (Qp - Q) - (1 / 2 : K) • (rhs Qp + rhs Q)) Q

/-- the start-up of `Bdf2.__step__` (`integrators/bdf2.py` 18–25): the loop over the sub-steps -/
def bdf2Start (newton : Newton V) (rhs : V → V) (initDt : K) : Nat → V → V
  | 0, newQ => newQ
  | n + 1, newQ => bdf2Start newton rhs initDt n
      (newton (fun Qp => initDt⁻¹ • (Qp - newQ) - (1 / 2 : K) • rhs Qp) newQ)

/-- `Bdf2.__step__` (`integrators/bdf2.py` 16–44) with `Qprev` the previous state, if any.
    Returns the new `Qprev` and the new state. -/
def bdf2 (newton : Newton V) (rhs : V → V) (substeps : Nat) (Qprev : Option V) (Q : V) (dt : K) : Option V × V :=
  match Qprev with
  | none => (some Q, bdf2Start newton rhs (dt / (substeps : K)) substeps Q)
  | some Qp => (some Q, newton (fun Qn =>
      dt⁻¹ • (Qn - (4 / 3 : K) • Q + (1 / 3 : K) • Qp) - (2 / 3 : K) • rhs Qn) Q)

/-- `SDIRKLstable.__step__` (`integrators/sdirk.py` 21–69); `g` is `sdirkparam` -/
def sdirk (newton : Newton V) (g : K) (rhs : V → V) (Q : V) (dt : K) : V :=
  let Q1 := newton (fun Q1 => dt⁻¹ • (Q1 - Q) - g • rhs Q1) Q
  let Q2 := newton (fun Q2 => dt⁻¹ • (Q2 - Q) - (1 - 2 * g) • rhs Q1 - g • rhs Q2) Q
  Q + dt • ((1 / 2 : K) • rhs Q1 + (1 / 2 : K) • rhs Q2)

/-- `Imex2.__step__` (`integrators/imex2.py` 18–27) -/
def imex2 (newton : Newton V) (rhsExp rhsImp : V → V) (Q : V) (dt : K) : V :=
  let r := Q + (dt / 2) • rhsExp Q
  let Y1 := newton (fun v => v - (dt / 2) • rhsImp v - r) Q
  Q + dt • (rhsImp Y1 + rhsExp Y1)

/-- `matvec_fun` with finite differences (`solvers/matvec.py` 62–68) -/
def matvecFun (eps : K) (rhs : V → V) (Q : V) (dt : K) (v : V) : V := (dt / eps) • (rhs (Q + eps • v) - rhs Q)

/-- `matvec_rat` (`solvers/matvec.py` 76–88) -/
def matvecRat (eps : K) (rhs : V → V) (Q : V) (dt : K) (v : V) : V :=
  v - (1 / 2 : K) • ((dt / eps) • (rhs (Q + eps • v) - rhs Q))

/-- A linear solver: operator, right-hand side and first guess to an approximate solution (`solvers/fgmres.py`). -/
abbrev Linear (V : Type*) := (V → V) → V → V → V

/-- `Ros2.__prestep__` and `__step__` (`integrators/ros2.py` 24–81) -/
def ros2 (linear : Linear V) (eps : K) (rhs : V → V) (Q : V) (dt : K) : V :=
  let A := matvecRat eps rhs Q dt
  linear A (A Q + dt • rhs Q) Q

/-- An exponential solver: `pmex([1.0], J, [v0, v1])` returns `φ_0(J) v0 + φ_1(J) v1` (`solvers/pmex.py`). -/
abbrev Phi (V : Type*) := (V → V) → V → V → V

/-- `matvec_fun` with its default method (`solvers/matvec.py` 56–60): `dt * (rhs_handle(Qvec) / epsilon).imag`.  `jac Q v` is the imaginary part, which
    depends on the values of the right-hand side at complex states. -/
def matvecStep (jac : V → V → V) (Q : V) (dt : K) (v : V) : V := dt • jac Q v

/-- `RosExp2.__step__` (`integrators/rosexp2.py` 21–74).  `jFull` and `jImp` are the products with the Jacobians of the two right-hand sides by the complex
    step, see `matvecStep`; the operator of the linear system uses finite differences. -/
def rosexp2 (linear : Linear V) (phi : Phi V) (eps : K) (rhsFull rhsImp : V → V) (jFull jImp : V → V → V) (Q : V) (dt : K) : V :=
  let Jexp := fun v => matvecStep jFull Q dt v - matvecStep jImp Q dt v
  let phiv := phi Jexp 0 (rhsFull Q)
  let A := matvecRat eps rhsImp Q dt
  linear A (A Q + dt • phiv) Q

/-- `PartRosExp2.__step__` (`integrators/partrosexp2.py` 22–85), with the products as in `rosexp2`; here the linear system uses them too. -/
def partrosexp2 (linear : Linear V) (phi : Phi V) (rhsFull rhsImp : V → V) (jFull jImp : V → V → V) (Q : V) (dt : K) : V :=
  let fImp := rhsImp Q
  let fExp := rhsFull Q - rhsImp Q
  let Jfull := matvecStep jFull Q dt
  let Jimp := matvecStep jImp Q dt
  let Jexp := fun v => Jfull v - Jimp v
  let phiv := phi Jexp ((1 / 2 : K) • fImp) fExp
  let A := fun v => v - (1 / 2 : K) • Jimp v
  linear A (A Q + dt • (phiv + (1 / 2 : K) • fImp)) Q

/-- `LieSplitting.__step__` (`integrators/splitting.py` 11–14); a scheme maps a state and a step to a state -/
def lie (s1 s2 : V → K → V) (Q : V) (dt : K) : V := s2 (s1 Q dt) dt

/-- `StrangSplitting.__step__` (`integrators/splitting.py` 23–27) -/
def strang (s1 s2 : V → K → V) (Q : V) (dt : K) : V := s1 (s2 (s1 Q (dt / 2)) dt) (dt / 2)

end WxVerif.Schemes
