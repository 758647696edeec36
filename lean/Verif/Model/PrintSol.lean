import Verif.Model.StiffPdes

/-!
Printing of the solution of the stiff test problems (wx_factory/stiff_pdes/print_stuff.py `print_sol`): the root process puts the parts gathered from all
processes together and appends the values to a file.
-/

namespace WxVerif.StiffPdes

noncomputable section

/-- the nested loops of `print_sol` (print_stuff.py:19-22): row of processes `j`, row of points in it `k`, process in the row `el`, point in its row `m` -/
def solLoops (procs n : Nat) : List (Nat × Nat × Nat × Nat) :=
  (List.range procs).flatMap fun j => (List.range n).flatMap fun k => (List.range procs).flatMap fun el => (List.range n).map fun m => (j, k, el, m)

/-- `indxSol` (print_stuff.py:25-30) -/
def indxSol (procs n perAxis : Nat) (q : Nat × Nat × Nat × Nat) : Nat := q.2.2.1 * n + perAxis * q.2.1 + q.1 * n * n * procs + q.2.2.2

/-- `finalSol[indxProc][indxArr]` (print_stuff.py:33-42); `none` is an index error -/
def solEntry (procs n : Nat) (finalSol : List (List ℝ)) (q : Nat × Nat × Nat × Nat) : Option ℝ :=
  (finalSol[q.1 * procs + q.2.2.1]?).bind fun part => part[q.2.1 * n + q.2.2.2]?

/-- one assignment to `finalSolOrder` (print_stuff.py:42); `none` is an index error -/
def solAssign (procs n perAxis : Nat) (finalSol : List (List ℝ)) (order : List ℝ) (q : Nat × Nat × Nat × Nat) : Option (List ℝ) :=
  (solEntry procs n finalSol q).bind fun x => if indxSol procs n perAxis q < order.length then some (order.set (indxSol procs n perAxis q) x) else none

/-- `print_sol(finalSol, filename, world)` (print_stuff.py:15-49): `file` are the lines that the file has before, `fmt` the text of a number; the answer is the
lines of the file afterwards and the returned array.  `numPoints` is the argument of `InitWorld`, from which `world` has `numPointsPerAxis` and `totalPoints`
(initWorld.py:170-175). -/
def printSol (fmt : ℝ → String) (w : World) (numPoints : Nat) (finalSol : List (List ℝ)) (file : List String) : Option (List String × List ℝ) :=
  let perAxis := pointsPerAxis w.periodic numPoints
  ((solLoops w.procs w.n).foldlM (solAssign w.procs w.n perAxis finalSol) (List.replicate (perAxis ^ 2) 0)).map fun order =>
    (file ++ order.map (fun x => fmt x ++ " "), order)

end

end WxVerif.StiffPdes
