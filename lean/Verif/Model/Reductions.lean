import Mathlib.Analysis.InnerProductSpace.PiL2

/-!
# Model of the global reductions

Source: `wx_factory/solvers/global_operations.py`.  A distributed vector is the list of the local vectors, by rank; exact
arithmetic (the order of a reduction does not matter).  `none` is an exception on at least one process.
-/

namespace WxVerif.Reductions

/-- `vec1 @ vec2` for local vectors; a mismatch of the lengths raises -/
def localDot (v w : List ℝ) : Option ℝ := if v.length = w.length then some (List.zipWith (· * ·) v w).sum else none

/-- `comm.allreduce(x)`: the sum over the processes, if every process has a value -/
def allreduceSum (xs : List (Option ℝ)) : Option ℝ := (xs.mapM id).map List.sum

/-- `comm.allreduce(x, op=MPI.MAX)`; a communicator has at least one process -/
noncomputable def allreduceMax (xs : List (Option ℝ)) : Option ℝ := (xs.mapM id).bind fun l => l.max?

/-- `global_dotprod` (`global_operations.py` 30–33) -/
def globalDot (parts : List (List ℝ × List ℝ)) : Option ℝ := allreduceSum (parts.map fun p => localDot p.1 p.2)

/-- `global_norm` (`global_operations.py` 15–27) on vectors of one dimension -/
noncomputable def globalNorm (parts : List (List ℝ)) : Option ℝ := (allreduceSum (parts.map fun v => localDot v v)).map Real.sqrt

/-- `numpy.amax(numpy.abs(vec))`: an empty array raises `ValueError` -/
noncomputable def localMax (v : List ℝ) : Option ℝ := (v.map fun x => |x|).max?

/-- `global_inf_norm` (`global_operations.py` 36–39) -/
noncomputable def globalInfNorm (parts : List (List ℝ)) : Option ℝ := allreduceMax (parts.map localMax)

end WxVerif.Reductions
