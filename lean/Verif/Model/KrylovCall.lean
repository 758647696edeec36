import Verif.Model.Krylov
import Mathlib.Analysis.InnerProductSpace.ProdL2
import Mathlib.Analysis.InnerProductSpace.PiL2
import Mathlib.Analysis.SpecialFunctions.Log.Base

/-!
# Model of a whole call of the exponential solvers

Sources: `wx_factory/solvers/kiops.py`, `wx_factory/solvers/pmex.py`.
-/

namespace WxVerif.Krylov

variable {V : Type*} [NormedAddCommGroup V] [InnerProductSpace ℝ V]

/-- the space of the augmented vectors with its scalar product (`kiops.py` 140, 168: rows of `V` of length `n + p`, norm and dot
    products over all the entries) -/
abbrev Aug (V : Type*) (p : Nat) := WithLp 2 (V × EuclideanSpace ℝ (Fin p))

/-- an augmented vector as an element of that space (`kiops.py` 157–163) -/
noncomputable def toAug {p : Nat} (v : V × (Fin p → ℝ)) : Aug V p := WithLp.toLp 2 (v.1, WithLp.toLp 2 v.2)

/-- the augmented product in that space (`kiops.py` 181–183, `pmex.py` 164–166) -/
noncomputable def augT {p : Nat} (A : V → V) (uf : Fin p → V) (w : Aug V p) : Aug V p :=
  toAug (augMul A uf (w.fst, fun k => w.snd k))

/-- The outer loop (`kiops.py` 150–325, `pmex.py` 133–345) restricted to its accepted sub-steps of a call of `kiops` (`pm = false`) or `pmex`: length, time reached before and size of the space of
each; `mem` are the arrays, which are not cleared between the sub-steps.
    Simplifications: a rejected attempt only extends the same space, so it is part of the run with the final size; how the lengths
    and sizes are chosen is left open (the theorems hold for all of them); one output time. -/
noncomputable def solverRun {p : Nat} (pm : Bool) (A : V → V) (uf : Fin p → V) (mu : ℝ) (iop : Nat) (tol : ℝ) :
    List (ℝ × ℝ × Nat) → Mem (Aug V p) → V → V
  | [], _, w => w
  | (tau, now, m) :: rest, s, w =>
    let v := toAug (startVec p w mu now)
    let s' := if pm then pmexRun (augT A uf) tol m v s else kiopsRun (augT A uf) iop tol m v s
    let w' := (if pm then pmexUpdate tau v s' else kiopsUpdate tau v s').fst
    solverRun pm A uf mu iop tol rest (accepted s') w'

/-! ## A call with the choices made while it runs -/

/-- what the step control reads of the Krylov space after each extension, and at the start of each new sub-step (size 0): the Hessenberg matrix, its size, the breakdown and the norm of the start vector
    (`kiops.py` 213–290, `pmex.py` 234–310: exponential, error estimate, new length and size are computed from these and from the arguments) -/
structure Seen where
  H : Nat → Nat → ℝ
  j : Nat
  happy : Bool
  beta : ℝ

/-- what the control decides: to extend the space to size `m`, or to accept a sub-step of length `tau` after which `now` has been reached; `passed` are the
    distances `tau_out[k] - tau_now` of the output times inside the sub-step -/
inductive Move where
  | grow (m : Nat)
  | accept (tau now : ℝ) (passed : List ℝ)

/-- the solution at an output time inside the sub-step (`kiops.py` 308–311, `pmex.py` 334–337): `F2 = expm(tau * H[:j, :j])`, `beta * F2[:j, 0] @ V[:j]` -/
noncomputable def inside {W : Type*} [NormedAddCommGroup W] [InnerProductSpace ℝ W] (tau : ℝ) (v : W) (s : Mem W) : W :=
  let H : Matrix (Fin s.j) (Fin s.j) ℝ := fun a b => s.H a b
  if h : 0 < s.j then ‖v‖ • ∑ k : Fin s.j, (NormedSpace.exp (tau • H)) k ⟨0, h⟩ • s.V k else 0

/-- The outer loop (`kiops.py` 150–345, `pmex.py` 133–372) with the decisions of the control, a function of what has been seen since the start of
    the call: finished rows, current arrays, start vector and solution.  It returns the rows, the last of which is the solution at the time reached, and
    everything seen. -/
noncomputable def adaptive {p : Nat} (pm : Bool) (A : V → V) (uf : Fin p → V) (mu : ℝ) (iop : Nat) (tol : ℝ) (control : List Seen → Option Move) :
    Nat → List Seen → List V → Mem (Aug V p) → Aug V p → V → List V × List Seen
  | 0, log, rows, _, _, w => (rows ++ [w], log)
  | fuel + 1, log, rows, s, v, w =>
    match control log with
    | none => (rows ++ [w], log)
    | some (.grow m) =>
      let s' := krylovLoop (if pm then pmexStep (augT A uf) tol else kiopsStep (augT A uf) iop tol) m m s
      adaptive pm A uf mu iop tol control fuel (log ++ [⟨s'.H, s'.j, s'.happy, ‖v‖⟩]) rows s' v w
    | some (.accept tau now passed) =>
      let w' := (if pm then pmexUpdate tau v s else kiopsUpdate tau v s).fst
      let v' := toAug (startVec p w' mu now)
      adaptive pm A uf mu iop tol control fuel (log ++ [⟨(accepted s).H, 0, false, ‖v'‖⟩]) (rows ++ passed.map fun t => (inside t v s).fst) (begin pm v' (accepted s)) v' w'

/-- the sum of the absolute values of all the entries (`kiops.py` 112–115, `pmex.py` 90–94; `Allreduce` of the local sums) -/
noncomputable def sumNorm {ι : Type*} [Fintype ι] (x : EuclideanSpace ℝ ι) : ℝ := ∑ i, |x i|

/-- `normU`: the largest of the rows 1 … p (`kiops.py` 116, `pmex.py` 96) -/
noncomputable def normU {ι : Type*} [Fintype ι] (p : Nat) (u : Nat → EuclideanSpace ℝ ι) : ℝ :=
  (List.range p).foldr (fun i a => max (sumNorm (u (i + 1))) a) 0

/-- `nu` and `mu` (`kiops.py` 118–125, `pmex.py` 98–105) for at least one row beside row 0 -/
noncomputable def scaleOf (a : ℝ) : ℝ × ℝ := if 0 < a then scale ⌈Real.logb 2 a⌉ else (1, 1)

/-- a whole call of `kiops` (`pm = false`) or `pmex` with the rows `u 0, …, u p` (`kiops.py` 72–345, `pmex.py` 50–372); `control` may depend on the
    arguments; `fuel` bounds the number of its decisions.  The rows hold the
    solution at the output times -/
noncomputable def call {ι : Type*} [Fintype ι] (pm : Bool) (A : EuclideanSpace ℝ ι → EuclideanSpace ℝ ι) (p : Nat) (u : Nat → EuclideanSpace ℝ ι)
    (iop : Nat) (tol : ℝ) (control : List Seen → Option Move) (fuel : Nat) : List (EuclideanSpace ℝ ι) × List Seen :=
  let sc := scaleOf (normU p u)
  let v := toAug (startVec p (u 0) sc.2 0)
  adaptive pm A (uFlip sc.1 p u) sc.2 iop tol control fuel [] [] (begin pm v fresh) v (u 0)

end WxVerif.Krylov
