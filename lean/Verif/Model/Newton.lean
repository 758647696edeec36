import Mathlib.Algebra.Module.Basic
import Mathlib.Algebra.Order.Field.Basic

/-!
# Model of the Newton-Krylov solver and of the flag its callers report

Source: `wx_factory/solvers/nonlin.py`, `wx_factory/integrators/{backward_euler,crank_nicolson,bdf2,sdirk}.py`.

Exact arithmetic over an ordered field `K`, extended by the special floats that the first iteration meets.
The inner linear solver and SciPy's scalar line search are parameters.
-/

namespace WxVerif.Newton

variable {K : Type*} {V : Type*} [Field K] [LinearOrder K] [IsStrictOrderedRing K] [AddCommGroup V] [Module K V]

/-- a float: a number, `inf`, `-inf` or `nan` -/
inductive Ext (K : Type*) where
  | fin (x : K) | inf | ninf | nan
  deriving DecidableEq

/-- IEEE `a <= b` -/
def Ext.le : Ext K → Ext K → Bool
  | .nan, _ => false
  | _, .nan => false
  | .ninf, _ => true
  | _, .inf => true
  | .inf, _ => false
  | _, .ninf => false
  | .fin a, .fin b => decide (a ≤ b)

/-- IEEE `a / b` as NumPy computes it (no exception); the sign of a zero divisor is taken as positive -/
def Ext.div : Ext K → Ext K → Ext K
  | .nan, _ => .nan
  | _, .nan => .nan
  | .fin _, .inf => .fin 0
  | .fin _, .ninf => .fin 0
  | .inf, .fin b => if b < 0 then .ninf else .inf
  | .ninf, .fin b => if b < 0 then .inf else .ninf
  | .fin a, .fin b => if b = 0 then (if a = 0 then .nan else if a < 0 then .ninf else .inf) else .fin (a / b)
  | _, _ => .nan

/-- the tolerances (`nonlin.py` 37–45): `None` becomes infinity, except for `f_tol` -/
structure Tols (K : Type*) where
  fTol : K
  fRtol : Ext K := .inf
  xTol : Ext K := .inf
  xRtol : Ext K := .inf

/-- the value of `terminated` (`nonlin.py` 82–84; the assignment in 79–80 is overwritten) -/
def terminated (tol : Tols K) (fNorm f0Norm xNorm : K) (dxNorm : Ext K) : Bool :=
  ((Ext.fin fNorm).le (.fin tol.fTol) && ((Ext.fin fNorm).div tol.fRtol).le (.fin f0Norm)) &&
    (dxNorm.le tol.xTol && (dxNorm.div tol.xRtol).le (.fin xNorm))

/-- the memory of the objective of the line search (`nonlin.py` 125–127) -/
structure Memo (K V : Type*) where
  s : K
  Fx : V
  phi : K

/-- `phi(s, store)` (`nonlin.py` 130–140): value and new memory -/
def phi (F : V → V) (norm : V → K) (x dx : V) (m : Memo K V) (s : K) (store : Bool) : K × Memo K V :=
  if s = m.s then (m.phi, m)
  else
    let v := F (x + s • dx)
    let p := norm v ^ 2
    (p, if store then ⟨s, v, p⟩ else m)

/-- SciPy's search evaluates the objective at points of its choice.  It is a program that asks for a value and goes on
    with the answer, and ends with a step length or `None`. -/
inductive Search (K : Type*) where
  | done (s : Option K)
  | ask (s : K) (store : Bool) (next : K → Search K)

/-- running the search on the memory -/
def runSearch (F : V → V) (norm : V → K) (x dx : V) : Search K → Memo K V → Option K × Memo K V
  | .done s, m => (s, m)
  | .ask s store next, m =>
    let r := phi F norm x dx m s store
    runSearch F norm x dx (next r.1) r.2

/-- `_nonlin_line_search` (`nonlin.py` 124–170): new point, function value and norm -/
def lineSearch (F : V → V) (norm : V → K) (search : K → Search K) (x Fx dx : V) : V × V × K :=
  let m0 : Memo K V := ⟨0, Fx, norm Fx ^ 2⟩
  let r := runSearch F norm x dx (search m0.phi) m0
  let s := r.1.getD 1
  let x' := x + s • dx
  let Fx' := if s = r.2.s then r.2.Fx else F x'
  (x', Fx', norm Fx')

/-- what the solver uses -/
structure Solver (K V : Type*) where
  F : V → V
  norm : V → K
  normInf : V → K
  /-- `jacobian.solve(Fx, tol)` at the point `x` -/
  solve : V → V → K → V
  /-- `line_search`: `None` or a search started with the value at 0 -/
  search : Option (K → Search K)
  tol : Tols K

/-- the variables of the loop -/
structure State (K V : Type*) where
  x : V
  Fx : V
  dxNorm : Ext K
  FxNorm : K
  eta : K
  f0Norm : Option K
  residuals : List K

/-- the forcing parameter (`nonlin.py` 102–107): `gamma = 0.9`, `eta_max = 0.9999`, threshold `0.1`.
    A zero old norm makes `eta_A` infinite or `nan`; Python's `min(eta_max, ·)` is then `eta_max`. -/
def forcing (eta old new : K) : K :=
  if old = 0 then 9999 / 10000
  else
    let etaA := 9 / 10 * new ^ 2 / old ^ 2
    if 9 / 10 * eta ^ 2 < 1 / 10 then min (9999 / 10000) etaA
    else min (9999 / 10000) (max etaA (9 / 10 * eta ^ 2))

/-- the tolerance given to the linear solver (`nonlin.py` 89) -/
def innerTol (eta FxNorm : K) : K := min eta (eta * FxNorm)

/-- line search or full step (`nonlin.py` 93–99) -/
def newPoint (p : Solver K V) (x Fx dx : V) : V × V × K :=
  match p.search with
  | some search => lineSearch p.F p.norm search x Fx dx
  | none => (x + dx, p.F (x + dx), p.norm (p.F (x + dx)))

/-- the Newton update of one iteration (`nonlin.py` 89–110) -/
def update (p : Solver K V) (st : State K V) : State K V :=
  let dx := -p.solve st.x st.Fx (innerTol st.eta st.FxNorm)
  let r := newPoint p st.x st.Fx dx
  { st with x := r.1, Fx := r.2.1, dxNorm := .fin (p.normInf dx), FxNorm := r.2.2,
            eta := forcing st.eta st.FxNorm r.2.2 }

/-- the beginning of an iteration: residual list and reference norm (`nonlin.py` 66–77) -/
def observe (p : Solver K V) (st : State K V) : State K V :=
  { st with residuals := st.residuals ++ [p.normInf st.Fx],
            f0Norm := some (st.f0Norm.getD (p.normInf st.Fx)) }

/-- the test of an iteration on the observed state -/
def test (p : Solver K V) (st : State K V) : Bool :=
  terminated p.tol (p.normInf st.Fx) (st.f0Norm.getD 0) (p.normInf st.x) st.dxNorm

/-- the loop (`nonlin.py` 64–116): state, number of iterations begun and `terminated` -/
def loop (p : Solver K V) : Nat → Nat → State K V → State K V × Nat × Bool
  | 0, it, st => (st, it, false)
  | n + 1, it, st =>
    if test p (observe p st) then (observe p st, it + 1, true)
    else loop p n (it + 1) (update p (observe p st))

/-- the start of the loop (`nonlin.py` 29–62) -/
def start (p : Solver K V) (x0 : V) : State K V :=
  { x := x0, Fx := p.F x0, dxNorm := .inf, FxNorm := p.norm (p.F x0), eta := 1 / 1000, f0Norm := none, residuals := [] }

/-- what the caller of `newton_krylov` sees -/
structure Answer (K V : Type*) where
  x : V
  iterations : Nat
  residuals : List K

/-- `newton_krylov` (`nonlin.py` 12–121): `none` is the `UnboundLocalError` for `maxiter = 0` -/
def newtonKrylov (p : Solver K V) (x0 : V) (maxiter : Nat) : Option (Answer K V) :=
  if maxiter = 0 then none
  else
    let r := loop p maxiter 0 (start p x0)
    some ⟨r.1.x, r.2.1 - 1, r.1.residuals⟩

/-- the flag of the step information (`SolverInfo(0, …)`: `backward_euler.py` 42, `crank_nicolson.py` 39,
    `bdf2.py` 40, `sdirk.py` 67): constant -/
def reportedFlag (_ : Answer K V) : Int := 0

/-- `KrylovJacobian.matvec` (`nonlin.py` 196–201) -/
def jacobianProduct (F : V → V) (norm : V → K) (omega : K) (x0 f0 v : V) : V :=
  if norm v = 0 then (0 : K) • v
  else (omega / norm v)⁻¹ • (F (x0 + (omega / norm v) • v) - f0)

end WxVerif.Newton
