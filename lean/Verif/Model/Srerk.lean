import Verif.Model.Epi
import Mathlib.Data.Nat.Factorial.Basic

/-!
# Model of the stiffness-resilient exponential Runge-Kutta integrators

Source: `wx_factory/integrators/srerk.py`.
-/

namespace WxVerif.Srerk

open WxVerif.Epi (alphaCoeff)

variable {K : Type*} {V : Type*} [Field K] [AddCommGroup V] [Module K V]

/-- the coefficient of `x^q` of the polynomial whose roots are the nodes of a stage of size `p` (`srerk.py` 33–37) -/
def coeff (p q : Nat) : K :=
  (-1) ^ (p + q) * ((p + q + 2).factorial : K) / ((q.factorial : K) * ((q + 2).factorial : K) * ((p - q).factorial : K))

/-- the sizes of the stages: `list(range(2, order - 2, 2)) + [order - 2]`, and one for the last projection (`srerk.py` 41–45);
    `none` is the `ValueError` for orders below 3 -/
def stageSizes (order : Nat) : Option (List Nat) :=
  if order < 3 then none
  else some ((List.range' 2 ((order - 2 - 2 + 1) / 2) 2) ++ [order - 2] ++ [1])

/-- what a step calls: the right-hand side, the Jacobian product with unit step (`matvec_handle(v) / dt`) and the
    exponential solver, which receives the nodes, the state, the step and the rows of `vec`, and returns one row per node -/
structure Ext (K V : Type*) where
  rhs : V → V
  jac : V → V → V
  phi : List K → V → K → List V → List V

/-- `alpha @ rz` (`srerk.py` 291) -/
def matRows (alpha : List (List K)) (rz : List V) : List V :=
  alpha.map fun row => (List.zipWith (fun a r => a • r) row rz).sum

/-- one of the later projections (`srerk.py` 276–291 and the call of the solver) -/
def project (ext : Ext K V) (Q : V) (dt : K) (f : V) (alpha : List (List K)) (nodes : List K) (z : List V) : List V :=
  let z := z.map fun v => Q + dt • v
  let rz := z.map fun v => (ext.rhs v - f) - ext.jac Q (v - Q)
  ext.phi nodes Q dt ([0, f, 0] ++ matRows alpha rz)

/-- the loop over the later projections -/
def projections (ext : Ext K V) (Q : V) (dt : K) (f : V) : List K → List (List K) → List V → List V
  | _, [], z => z
  | prev, nodes :: rest, z => projections ext Q dt f nodes rest (project ext Q dt f (alphaCoeff prev) nodes z)

/-- `Srerk.__step__` (`srerk.py` 75–end); `none` is an exception: no nodes, or a last projection whose size is not one
    (`numpy.reshape`) -/
def step (c : List (List K)) (ext : Ext K V) (Q : V) (dt : K) : Option V :=
  match c with
  | [] => none
  | c0 :: rest =>
    let f := ext.rhs Q
    match projections ext Q dt f c0 rest (ext.phi c0 Q dt [0, f]) with
    | [v] => some (Q + dt • v)
    | _ => none

end WxVerif.Srerk
