import Verif.Model.KrylovCall
import Verif.Model.Gmres
import Verif.Model.Newton
import Verif.Model.Schemes
import Verif.Model.Epi
import Verif.Model.Srerk
import Mathlib.Analysis.Calculus.FDeriv.Basic

/-!
# The integrators with their solvers, on vectors shared out among the processes

Sources: `wx_factory/integrators/{epi,srerk}.py`, `wx_factory/solvers/{nonlin,matvec,kiops,pmex,fgmres}.py`.

A vector is indexed by the points of all the processes together (`ι`); sums and norms over it are the global ones
(`solvers/global_operations.py`).  Exact arithmetic.
-/

namespace WxVerif.Calls

open WxVerif.Krylov WxVerif.Gmres

variable {ι : Type*} [Fintype ι]

/-- the settings of the exponential solver: which one (`pm`: `pmex`, else `kiops`), the length of the incomplete orthogonalisation, the
    tolerance for a breakdown and the bound on the number of decisions -/
structure Expo where
  pm : Bool
  iop : Nat
  tol : ℝ
  fuel : Nat
  /-- `jacobian_method` (`matvec.py` 57–68): the perturbation of the finite differences, or `none` for the complex step -/
  eps : Option ℝ

/-- the Jacobian product of the solver (`matvec.py` 36–70).
    Simplification: the complex step is represented by the derivative, from which it differs by the square of its perturbation (`C90_complex_step`). -/
noncomputable def product (o : Expo) (rhs : EuclideanSpace ℝ ι → EuclideanSpace ℝ ι) (Q : EuclideanSpace ℝ ι) (dt : ℝ) (v : EuclideanSpace ℝ ι) :
    EuclideanSpace ℝ ι :=
  match o.eps with
  | some eps => Schemes.matvecFun eps rhs Q dt v
  | none => dt • fderiv ℝ rhs Q v

/-- the call of the solver with the rows `vec` (`epi.py` 99, 118–360, `srerk.py` 77, 88–276): the solutions and what the control has seen -/
noncomputable def phiCall (o : Expo) (control : List Seen → Option Move) (rhs : EuclideanSpace ℝ ι → EuclideanSpace ℝ ι) (Q : EuclideanSpace ℝ ι) (dt : ℝ)
    (vec : List (EuclideanSpace ℝ ι)) : List (EuclideanSpace ℝ ι) × List Seen :=
  call o.pm (product o rhs Q dt) (vec.length - 1) (fun i => vec.getD i 0) o.iop o.tol control o.fuel

/-- what an EPI step calls (`epi.py` 95–130): right-hand side, Jacobian products, the exponential solver with the one output time 1, and for the start-up
    EPI of order 2.  `start` controls the solver of the start-up method. -/
noncomputable def exponential (o : Expo) (control start : List Seen → Option Move) (rhs : EuclideanSpace ℝ ι → EuclideanSpace ℝ ι) :
    Epi.Ext ℝ (EuclideanSpace ℝ ι) where
  rhs := rhs
  jac Q v := product o rhs Q 1 v
  phi Q dt vec := (phiCall o control rhs Q dt vec).1.getLastD 0
  initStep Q dt := Q + dt • (phiCall o start rhs Q dt [0, rhs Q]).1.getLastD 0

/-- what the solver of a step has seen (`stats`, `epi.py` 118–131); nothing during the start-up -/
noncomputable def seenBy (cfg : Epi.Cfg ℝ) (o : Expo) (control start : List Seen → Option Move) (rhs : EuclideanSpace ℝ ι → EuclideanSpace ℝ ι)
    (st : Epi.St ℝ (EuclideanSpace ℝ ι)) (Q : EuclideanSpace ℝ ι) (dt : ℝ) : List Seen :=
  let st := Epi.checkDt st dt
  if st.prevQ.length < cfg.nPrev then []
  else match Epi.fill cfg (exponential o control start rhs) st Q (rhs Q) 0 cfg.nPrev (Epi.vec0 cfg (rhs Q)) with
    | none => []
    | some vec => (phiCall o control rhs Q dt vec).2

/-- A run with an EPI integrator (`epi.py` 81–360, `simulation.py` main loop).  The control of a step may use everything seen in the earlier steps: the code
    keeps `krylov_size` (`epi.py` 37, 131).  `none` is an exception. -/
noncomputable def epiRun (cfg : Epi.Cfg ℝ) (o : Expo) (control : List (List Seen) → List Seen → Option Move) (start : List Seen → Option Move)
    (rhs : EuclideanSpace ℝ ι → EuclideanSpace ℝ ι) (dts : Nat → ℝ) (Q0 : EuclideanSpace ℝ ι) :
    Nat → Option ((Epi.St ℝ (EuclideanSpace ℝ ι) × EuclideanSpace ℝ ι) × List (List Seen))
  | 0 => some ((Epi.init, Q0), [])
  | n + 1 => (epiRun cfg o control start rhs dts Q0 n).bind fun s =>
    (Epi.step cfg (exponential o (control s.2) start rhs) s.1.1 s.1.2 (dts n)).map fun r =>
      (r, s.2 ++ [seenBy cfg o (control s.2) start rhs s.1.1 s.1.2 (dts n)])

/-! ## Exponential Runge-Kutta -/

/-- the loop over the later projections of an SRERK step with the solver (`srerk.py` 276–end): the rows and what the controls have seen.  The control of a
    call may use the nodes and everything seen in the earlier calls of the run: the code keeps `krylov_size` (`srerk.py` 61, 107). -/
noncomputable def srerkProjections (o : Expo) (control : List ℝ → List (List Seen) → List Seen → Option Move) (rhs : EuclideanSpace ℝ ι → EuclideanSpace ℝ ι)
    (Q : EuclideanSpace ℝ ι) (dt : ℝ) : List ℝ → List (List ℝ) → List (EuclideanSpace ℝ ι) × List (List Seen) →
    List (EuclideanSpace ℝ ι) × List (List Seen)
  | _, [], s => s
  | prev, nodes :: rest, s =>
    let z := s.1.map fun v => Q + dt • v
    let rz := z.map fun v => (rhs v - rhs Q) - product o rhs Q 1 (v - Q)
    let r := phiCall o (control nodes s.2) rhs Q dt ([0, rhs Q, 0] ++ Srerk.matRows (Epi.alphaCoeff prev) rz)
    srerkProjections o control rhs Q dt nodes rest (r.1, s.2 ++ [r.2])

/-- `Srerk.__step__` with the solver (`srerk.py` 75–end); `none` is an exception, as in `Srerk.step` -/
noncomputable def srerkStep (c : List (List ℝ)) (o : Expo) (control : List ℝ → List (List Seen) → List Seen → Option Move)
    (rhs : EuclideanSpace ℝ ι → EuclideanSpace ℝ ι) (log : List (List Seen)) (Q : EuclideanSpace ℝ ι) (dt : ℝ) :
    Option (EuclideanSpace ℝ ι × List (List Seen)) :=
  match c with
  | [] => none
  | c0 :: rest =>
    let r := phiCall o (control c0 log) rhs Q dt [0, rhs Q]
    match srerkProjections o control rhs Q dt c0 rest (r.1, log ++ [r.2]) with
    | ([v], log) => some (Q + dt • v, log)
    | _ => none

/-- a run with an SRERK integrator -/
noncomputable def srerkRun (c : List (List ℝ)) (o : Expo) (control : List ℝ → List (List Seen) → List Seen → Option Move)
    (rhs : EuclideanSpace ℝ ι → EuclideanSpace ℝ ι) (dts : Nat → ℝ) (Q0 : EuclideanSpace ℝ ι) : Nat → Option (EuclideanSpace ℝ ι × List (List Seen))
  | 0 => some (Q0, [])
  | n + 1 => (srerkRun c o control rhs dts Q0 n).bind fun s => srerkStep c o control rhs s.2 s.1 (dts n)

/-! ## Newton-Krylov -/

/-- `global_inf_norm` (`global_operations.py`): the largest absolute value over all the processes -/
noncomputable def infNorm (x : EuclideanSpace ℝ ι) : ℝ := ‖(WithLp.ofLp x : ι → ℝ)‖

/-- the settings of the Newton solver: `rdiff`, the length of a cycle, the triangular solver on the small problem -/
structure Inner where
  rdiff : ℝ
  restart : Nat
  tri : Nat → Small → Option (Nat → ℝ)

/-- `KrylovJacobian` (`nonlin.py` 172–220) with `fgmres_maxiter = 1`, the value of every caller: the linear system of a Newton step on all processes, each of
    which holds `len` entries; `stag` are their tests for stagnation -/
noncomputable def jacobianSolve {P : Type*} (o : Inner) (len : Nat) (stag : P → EuclideanSpace ℝ ι → EuclideanSpace ℝ ι → Prop)
    (F : EuclideanSpace ℝ ι → EuclideanSpace ℝ ι) (x f : EuclideanSpace ℝ ι) (tol : ℝ) : Together P (EuclideanSpace ℝ ι) :=
  let A := Newton.jacobianProduct F norm (o.rdiff * max 1 (infNorm x) / max 1 (infNorm f)) x f
  fgmresAll A f 0 tol o.restart len 1 false (runCycle A id (tol * ‖f‖) o.restart o.tri) stag

/-- the solution that process `q` has.  Simplification: an exception, which ends the run, is represented by the zero vector. -/
noncomputable def solutionOf {P W : Type*} [Zero W] (q : P) : Together P W → W
  | .answers a => (a q).x
  | _ => 0

/-- `newton_krylov` (`nonlin.py` 12–121) as the integrators call it, seen by process `q`; `none` (no iteration allowed) is represented by the first guess -/
noncomputable def newton {P : Type*} (o : Inner) (len : Nat) (stag : P → EuclideanSpace ℝ ι → EuclideanSpace ℝ ι → Prop) (q : P)
    (search : Option (ℝ → Newton.Search ℝ)) (tol : Newton.Tols ℝ) (maxiter : Nat) : Schemes.Newton (EuclideanSpace ℝ ι) := fun F x0 =>
  ((Newton.newtonKrylov ⟨F, norm, infNorm, fun x f tol => solutionOf q (jacobianSolve o len stag F x f tol), search, tol⟩ x0 maxiter).map fun a => a.x).getD x0

end WxVerif.Calls
