import Mathlib.Algebra.Module.Basic
import Mathlib.Algebra.Order.Field.Basic
import Mathlib.Data.List.Sublists
import Mathlib.Data.Nat.Factorial.Basic
import Mathlib.Algebra.BigOperators.Group.List.Basic

/-!
# Model of the exponential propagation iterative (EPI) integrators

Sources: `wx_factory/integrators/epi.py`, `wx_factory/integrators/epi_stiff.py`,
`wx_factory/integrators/integrator.py` (`alpha_coeff`).

The arithmetic is exact (any linearly ordered field `K`, any vector space `V`); rounding is not modelled.
-/

namespace WxVerif.Epi

variable {K : Type*} {V : Type*}

/-- The coefficient tables of `Epi.__init__` (`integrators/epi.py` 46–63).
    `none` is the `ValueError` for any other order. -/
def table : Nat → Option (List (List Rat))
  | 2 => some [[]]
  | 3 => some [[2 / 3]]
  | 4 => some [[-3 / 10, 3 / 40], [32 / 5, -11 / 10]]
  | 5 => some [[-4 / 5, 2 / 5, -4 / 45], [12, -9 / 2, 8 / 9], [3, 0, -1 / 3]]
  | 6 => some [[-49 / 60, 351 / 560, -359 / 1260, 367 / 6720],
               [92 / 7, -99 / 14, 176 / 63, -1 / 2],
               [485 / 21, -151 / 14, 23 / 9, -31 / 168]]
  | _ => none

/-- What a constructed EPI integrator remembers about its method
    (`integrators/epi.py` 65–79, `integrators/epi_stiff.py` 27–42):
    the coefficient rows, the number of past states, the highest phi function, the first row of `vec` that
    receives coefficients (`enumerate(…, start=2)` at `epi.py` 113 against `vec[k + 3, :]` at
    `epi_stiff.py` 80) and the number of start-up sub-steps. -/
structure Cfg (K : Type*) where
  A : List (List K)
  nPrev : Nat
  maxPhi : Nat
  first : Nat
  substeps : Nat

/-- `Epi.__init__` (`integrators/epi.py` 46–79).  `numpy` reports the shape `(1, 0)` for `[[]]`. -/
def epi [Field K] (order substeps : Nat) : Option (Cfg K) :=
  (table order).map fun A =>
    let k := A.length
    let nPrev := (A.head?.map List.length).getD 0
    let k := if order = 2 then k - 1 else k
    { A := A.map (fun r => r.map fun (x : Rat) => (x : K)), nPrev := nPrev, maxPhi := k + 1, first := 2,
      substeps := substeps }

/-- `c_no_i` of `alpha_coeff` (`integrators/integrator.py` 140): all the nodes but the `i`-th. -/
def others (c : List K) (i : Nat) : List K := c.eraseIdx i

/-- One entry of `alpha_coeff` (`integrators/integrator.py` 139–144).
    `itertools.combinations(l, r)` is `List.sublistsLen r l`; the order does not matter for the sum. -/
def alphaEntry [Field K] (c : List K) (k i : Nat) (ci : K) : K :=
  let m := c.length
  let cNo := others c i
  let denom := ci ^ 2 * (cNo.map (fun cl => ci - cl)).prod
  let sp := ((List.sublistsLen (m - k - 1) cNo).map List.prod).sum
  (-1) ^ (m - k + 1) * ((k + 2).factorial : K) * sp / denom

/-- `alpha_coeff` (`integrators/integrator.py` 135–146), as the list of its rows `k`. -/
def alphaCoeff [Field K] (c : List K) : List (List K) :=
  (List.range c.length).map fun k => c.zipIdx.map fun p => alphaEntry c k p.2 p.1

/-- `[-i for i in range(-1, 1 - order, -1)]` (`integrators/epi_stiff.py` 27), for `2 ≤ order`.
    `range(-1, 1 - order, -1)` is `-1, -2, …, 2 - order`: `order - 2` values. -/
def stiffNodes [Field K] (order : Nat) : List K :=
  ((List.range (order - 2)).map fun (j : Nat) => (-1 - (j : Int) : Int)).map fun i => ((-i : Int) : K)

/-- `EpiStiff.__init__` (`integrators/epi_stiff.py` 25–42). `none` is the `ValueError`. -/
def epiStiff [Field K] (order substeps : Nat) : Option (Cfg K) :=
  if order < 2 then none
  else
    let A := alphaCoeff (stiffNodes (K := K) order)
    some { A := A, nPrev := (stiffNodes (K := K) order).length,
           maxPhi := if 2 < order then order else 1, first := 3, substeps := substeps }

/-- The mutable part of the integrator (`integrators/epi.py` 70–72): newest entry first. -/
structure St (K V : Type*) where
  prevQ : List V
  prevRhs : List V
  dt : K

/-- The state after construction (`integrators/epi.py` 70–72, `integrators/epi_stiff.py` 32–34). -/
def init [Zero K] : St K V := ⟨[], [], 0⟩

/-- `vec[k, :] += x` (`integrators/epi.py` 115): `none` is numpy's `IndexError`. -/
def addAt [Add V] (vec : List V) (k : Nat) (x : V) : Option (List V) :=
  match vec[k]? with
  | none => none
  | some v => some (vec.set k (v + x))

/-- The inner loop `for k, alpha in enumerate(self.A[:, i], start=first): vec[k, :] += alpha * r`
    (`integrators/epi.py` 113–115, `integrators/epi_stiff.py` 78–80). -/
def addColumn [Add V] [SMul K V] (r : V) : List V → Nat → List K → Option (List V)
  | vec, _, [] => some vec
  | vec, k, a :: as => (addAt vec k (a • r)).bind fun vec => addColumn r vec (k + 1) as

/-- `self.A[:, i]` (`integrators/epi.py` 113): `none` is an `IndexError`. -/
def column : List (List K) → Nat → Option (List K)
  | [], _ => some []
  | row :: rows, i => row[i]?.bind fun x => (column rows i).map fun l => x :: l

/-- The external functions an EPI step calls: the right-hand side, the product of the Jacobian at a state with
    a vector (`matvec_fun` with unit step) and the exponential solver, which receives the state, the step
    and the rows of `vec`.  They are parameters of the model. -/
structure Ext (K V : Type*) where
  rhs : V → V
  jac : V → V → V
  phi : V → K → List V → V
  /-- `self.init_method.step`.  Simplification: a function of the state and the step
      (the default start-up method, EPI of order 2, keeps no history). -/
  initStep : V → K → V

/-- The loop over the past states that fills `vec` (`integrators/epi.py` 106–115,
    `integrators/epi_stiff.py` 71–80). -/
def fill [AddCommGroup V] [SMul K V] (cfg : Cfg K) (ext : Ext K V) (st : St K V) (Q f : V) :
    Nat → Nat → List V → Option (List V)
  | _, 0, vec => some vec
  | i, n + 1, vec =>
    st.prevQ[i]?.bind fun pq =>
    st.prevRhs[i]?.bind fun pr =>
    let jdq := ext.jac Q (pq - Q)
    let r := (pr - f) - jdq
    (column cfg.A i).bind fun col =>
    (addColumn r vec cfg.first col).bind fun vec =>
    fill cfg ext st Q f (i + 1) n vec

/-- `numpy.zeros((max_phi + 1, …)); vec[1, :] = rhs` (`integrators/epi.py` 104–105).
    `max_phi` is at least 1 for every method, so row 1 exists. -/
def vec0 [Zero V] (cfg : Cfg K) (f : V) : List V := (List.replicate (cfg.maxPhi + 1) 0).set 1 f

/-- `for i in range(init_substeps): Q = init_method.step(Q, dt)` (`integrators/epi.py` 95–96). -/
def substepLoop (initStep : V → K → V) (dt : K) : Nat → V → V
  | 0, Q => Q
  | n + 1, Q => substepLoop initStep dt n (initStep Q dt)

/-- The beginning of a step: if the step size changed, forget the history (`integrators/epi.py` 83–88,
    `integrators/epi_stiff.py` 47–51).  `self.dt and …` is false when the remembered step is zero. -/
def checkDt [Field K] [LinearOrder K] (st : St K V) (dt : K) : St K V :=
  if st.dt ≠ 0 ∧ |st.dt - dt| > 1 / 10 ^ 10 then ⟨[], [], dt⟩ else ⟨st.prevQ, st.prevRhs, dt⟩

/-- `Epi.__step__` (`integrators/epi.py` 81–360) and `EpiStiff.__step__` (`integrators/epi_stiff.py` 44–122).
    `none` is an uncaught Python exception (`IndexError`, or `ZeroDivisionError` for zero sub-steps).
    Simplification: the solver selection and its statistics are inside `ext.phi`. -/
def step [Field K] [LinearOrder K] [AddCommGroup V] [Module K V] (cfg : Cfg K) (ext : Ext K V)
    (st : St K V) (Q : V) (dt : K) : Option (St K V × V) :=
  let st := checkDt st dt
  if st.prevQ.length < cfg.nPrev then
    let st' : St K V := { st with prevQ := Q :: st.prevQ, prevRhs := ext.rhs Q :: st.prevRhs }
    if cfg.substeps = 0 then none
    else some (st', substepLoop ext.initStep (dt / (cfg.substeps : K)) cfg.substeps Q)
  else
    let f := ext.rhs Q
    match fill cfg ext st Q f 0 cfg.nPrev (vec0 cfg f) with
    | none => none
    | some vec =>
      let phiv := ext.phi Q dt vec
      let st' : St K V :=
        if 0 < cfg.nPrev then
          { st with prevQ := Q :: st.prevQ.dropLast, prevRhs := f :: st.prevRhs.dropLast }
        else st
      some (st', Q + dt • phiv)

/-- A run: the integrator is constructed, then `step` is called with the steps `dts 0, dts 1, …`
    (`simulation/simulation.py`, main loop). -/
def run [Field K] [LinearOrder K] [AddCommGroup V] [Module K V] (cfg : Cfg K) (ext : Ext K V)
    (dts : Nat → K) (Q0 : V) : Nat → Option (St K V × V)
  | 0 => some (init, Q0)
  | n + 1 => match run cfg ext dts Q0 n with
    | none => none
    | some (st, Q) => step cfg ext st Q (dts n)

end WxVerif.Epi
