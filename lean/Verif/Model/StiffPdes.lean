import Verif.Spec.Messages
import Mathlib.Data.Real.Basic
import Mathlib.Data.Nat.Sqrt

/-!
The two-dimensional stiff test problems of the exponential-solver benchmarks: splitting of the square between the processes, exchange of the
neighbouring rows and columns, finite-difference operators, right-hand sides and Jacobian products
(wx_factory/stiff_pdes/initWorld.py, JTV.py and rhs_jac_pdefuncs.py; called from tests/lowsync_benchmark/main_*.py).

Numbers are real numbers; arrays are lists.  A function that communicates is modelled by the blocking calls it makes (in order) and the value it
computes from its arguments and the buffers it has received; `none` is a raised exception (index out of range, or a name that was never bound).
The calls of a function do not depend on what it receives, because what is sent are always slices of its arguments.
-/

namespace WxVerif.StiffPdes

open WxVerif.Messages

noncomputable section

/-- Attributes of `InitWorld` (initWorld.py:88-206) that the operators use.  `procs` is both `procs_per_xaxis` and `procs_per_yaxis` (110), `n`
both `numPointsX` and `numPointsY` (181). -/
structure World where
  rank : Nat
  size : Nat
  periodic : Bool
  procs : Nat
  procY : Nat
  procX : Nat
  bottom : Option Nat
  top : Option Nat
  left : Option Nat
  right : Option Nat
  n : Nat
  dx : ℝ
  startX : ℝ
  startY : ℝ

/-- `numPointsPerAxis` (initWorld.py:170-173); the number of points is at least 2 (1 if periodic), else the code has negative numbers here. -/
def pointsPerAxis (periodic : Bool) (numPoints : Nat) : Nat := if periodic then numPoints - 1 else numPoints - 2

/-- `InitWorld.__init__(comm, BCType, [xL, xR], numPoints)` (initWorld.py:88-206) on the process of that rank; `none`: the program exits because
the number of processes is not a square (103-105).  `int(np.sqrt(size))` is the integer square root (exact in double precision for all
sizes that occur). -/
def initWorld (periodic : Bool) (xL xR : ℝ) (numPoints size rank : Nat) : Option World :=
  let procs := Nat.sqrt size
  if procs ^ 2 ≠ size then none
  else
    let procY := rank / procs
    let procX := rank % procs
    let n := pointsPerAxis periodic numPoints / procs
    let dx := (xR - xL) / ((numPoints : ℝ) - 1)
    some {
      rank := rank, size := size, periodic := periodic, procs := procs, procY := procY, procX := procX
      bottom :=
        if procY = 0 then (if periodic then some (procs * (procs - 1) + procX) else none)
        else some ((procY - 1) * procs + procX)
      top :=
        if procY = procs - 1 then (if periodic then some (rank - procs * (procs - 1)) else none)
        else some ((procY + 1) * procs + procX)
      left :=
        if procX = 0 then (if periodic then some (rank + (procs - 1)) else none)
        else some (rank - 1)
      right :=
        if procX = procs - 1 then (if periodic then some (rank - (procs - 1)) else none)
        else some (rank + 1)
      n := n, dx := dx
      startX := if periodic then xL + dx * procX * n else xL + dx * procX * n + dx
      startY := if periodic then xL + dx * procY * n else xL + dx * procY * n + dx }

/-! ## Exchange of rows and columns -/

/-- value of the argument `neigh` (JTV.py:28-91), and name of a buffer -/
inductive Side where
  | top | bottom | left | right
  deriving DecidableEq

/-- a buffer: the number of its allocation within one call, and its side -/
abbrev Buf := Nat × Side

/-- blocking calls -/
abbrev Calls := List (Act (List ℝ) Buf)

/-- `vec[a:b]` -/
def slice (vec : List ℝ) (a b : Nat) : List ℝ := (vec.take b).drop a

/-- the last column of the local array, copied into `buffer` (JTV.py:65-69, 163-167); the indices are smaller than `n * n` -/
def lastColumn (w : World) (vec : List ℝ) : List ℝ := (List.range w.n).map fun i => vec.getD (w.n * (i + 1) - 1) 0

/-- the first column of the local array, copied into `buffer` (JTV.py:81-85, 179-183) -/
def firstColumn (w : World) (vec : List ℝ) : List ℝ := (List.range w.n).map fun i => vec.getD (w.n * i) 0

/-- `sendData(vec, neigh, world)` (JTV.py:28-88) -/
def sendData (w : World) (vec : List ℝ) : Side → Calls
  | .top => if w.procY > 0 then [.send w.bottom 24 (slice vec 0 w.n)] else []
  | .bottom => if w.procY < w.procs - 1 then [.send w.top 25 (slice vec (w.n * (w.n - 1)) (w.n * w.n))] else []
  | .right => if w.procX < w.procs - 1 then [.send w.right 32 (lastColumn w vec)] else []
  | .left => if w.procX > 0 then [.send w.left 34 (firstColumn w vec)] else []

/-- `recieveData(neigh, world, dataArray)` (JTV.py:93-121) -/
def receiveData (w : World) (b : Buf) : Side → Calls
  | .top => if w.procY < w.procs - 1 then [.recv w.top 24 b] else []
  | .bottom => if w.procY > 0 then [.recv w.bottom 25 b] else []
  | .right => if w.procX > 0 then [.recv w.left 32 b] else []
  | .left => if w.procX < w.procs - 1 then [.recv w.right 34 b] else []

/-- `sendPerData(vec, neigh, world)` (JTV.py:125-185) -/
def sendPerData (w : World) (vec : List ℝ) : Side → Calls
  | .top => if w.procY = 0 then [.send w.bottom 24 (slice vec 0 w.n)] else []
  | .bottom => if w.procY = w.procs - 1 then [.send w.top 25 (slice vec (w.n * (w.n - 1)) (w.n * w.n))] else []
  | .right => if w.procX = w.procs - 1 then [.send w.right 32 (lastColumn w vec)] else []
  | .left => if w.procX = 0 then [.send w.left 34 (firstColumn w vec)] else []

/-- `recievePerData(neigh, world, dataArray)` (JTV.py:190-218) -/
def receivePerData (w : World) (b : Buf) : Side → Calls
  | .top => if w.procY = w.procs - 1 then [.recv w.top 24 b] else []
  | .bottom => if w.procY = 0 then [.recv w.bottom 25 b] else []
  | .right => if w.procX = 0 then [.recv w.left 32 b] else []
  | .left => if w.procX = w.procs - 1 then [.recv w.right 34 b] else []

/-- `getNeighData(vec, world, topData, bottomData, leftData, rightData)` (JTV.py:229-255); what is sent to the right is received as left data -/
def getNeighData (w : World) (vec : List ℝ) (k : Nat) : Calls :=
  sendData w vec .top ++ receiveData w (k, .top) .top ++ (sendData w vec .bottom ++ receiveData w (k, .bottom) .bottom) ++
  (sendData w vec .right ++ receiveData w (k, .left) .right) ++ (sendData w vec .left ++ receiveData w (k, .right) .left)

/-- `getExtraPeriodicData(vec, world, topData, bottomData, leftData, rightData)` (JTV.py:258-276) -/
def getExtraPeriodicData (w : World) (vec : List ℝ) (k : Nat) : Calls :=
  sendPerData w vec .top ++ receivePerData w (k, .top) .top ++ (sendPerData w vec .bottom ++ receivePerData w (k, .bottom) .bottom) ++
  (sendPerData w vec .right ++ receivePerData w (k, .left) .right) ++ (sendPerData w vec .left ++ receivePerData w (k, .right) .left)

/-! ## Operators -/

/-- a function that communicates: its calls, and its value given the buffers after the calls -/
structure Op where
  calls : Calls
  value : (Buf → List ℝ) → Option (List ℝ)

/-- `TopNeighData`, `BottomNeighData`, … (JTV.py:289-293 and the like): they are bound only when there is more than one process -/
def halo (w : World) (k : Nat) (b : Buf → List ℝ) : Option (Side → List ℝ) := if w.size > 1 then some fun s => b (k, s) else none

/-- `LeftNeighData[j]` and the like -/
def near (h : Option (Side → List ℝ)) (s : Side) (i : Nat) : Option ℝ := h.bind fun f => (f s)[i]?

/-- the loop `for j …: for i …: out[j * numPointsX + i] = …` (JTV.py:296-298 and the like) -/
def cells (w : World) (f : Nat → Nat → Option ℝ) : Option (List ℝ) :=
  ((List.range w.n).flatMap fun j => (List.range w.n).map fun i => (j, i)).mapM fun c => f c.1 c.2

/-- sum of two expressions that may raise -/
def add (a b : Option ℝ) : Option ℝ := a.bind fun x => b.map fun y => x + y

/-- difference of two expressions that may raise -/
def sub (a b : Option ℝ) : Option ℝ := a.bind fun x => b.map fun y => x - y

/-- product of two expressions that may raise -/
def mul (a b : Option ℝ) : Option ℝ := a.bind fun x => b.map fun y => x * y

/-- `a ** 2` -/
def sq (a : Option ℝ) : Option ℝ := a.map fun x => x ^ 2

/-- `laplacianDirichlet(vec, epsilon, world)` (JTV.py:279-364) -/
def laplacianDirichlet (k : Nat) (w : World) (vec : List ℝ) (epsilon : ℝ) : Op where
  calls := if w.size > 1 then getNeighData w vec k else []
  value b :=
    let h := halo w k b
    cells w fun j i =>
      let indx := j * w.n + i
      let x :=
        if i = 0 then
          if w.procX = 0 then vec[indx + 1]? else add vec[indx + 1]? (near h .left j)
        else if i = w.n - 1 then
          if w.procX = w.procs - 1 then vec[indx - 1]? else add vec[indx - 1]? (near h .right j)
        else add vec[indx - 1]? vec[indx + 1]?
      let y :=
        if j = 0 then
          if w.procY = 0 then vec[indx + w.n]? else add (near h .bottom i) vec[indx + w.n]?
        else if j = w.n - 1 then
          if w.procY = w.procs - 1 then vec[indx - w.n]? else add (near h .top i) vec[indx - w.n]?
        else add vec[indx - w.n]? vec[indx + w.n]?
      (add (add (vec[indx]?.map fun c => -4 * c) x) y).map fun v => epsilon * (v / w.dx ^ 2)

/-- `laplacianNeumann(vec, epsilon, world)` (JTV.py:373-462) -/
def laplacianNeumann (k : Nat) (w : World) (vec : List ℝ) (epsilon : ℝ) : Op where
  calls := if w.size > 1 then getNeighData w vec k else []
  value b :=
    let h := halo w k b
    let boundary := fun a c : Option ℝ => add (a.map fun v => 2 / 3 * v) (c.map fun v => 4 / 3 * v)
    cells w fun j i =>
      let indx := j * w.n + i
      let x :=
        if i = 0 then
          if w.procX = 0 then boundary vec[indx + 1]? vec[indx]? else add vec[indx + 1]? (near h .left j)
        else if i = w.n - 1 then
          if w.procX = w.procs - 1 then boundary vec[indx - 1]? vec[indx]? else add vec[indx - 1]? (near h .right j)
        else add vec[indx - 1]? vec[indx + 1]?
      let y :=
        if j = 0 then
          if w.procY = 0 then boundary vec[indx + w.n]? vec[indx]? else add (near h .bottom i) vec[indx + w.n]?
        else if j = w.n - 1 then
          if w.procY = w.procs - 1 then boundary vec[indx - w.n]? vec[indx]? else add (near h .top i) vec[indx - w.n]?
        else add vec[indx - w.n]? vec[indx + w.n]?
      (add (add (vec[indx]?.map fun c => -4 * c) x) y).map fun v => epsilon * (v / w.dx ^ 2)

/-- `nonLinLapPeriodic(vec, u, epsilon, world)` (JTV.py:478-550) -/
def nonLinLapPeriodic (k : Nat) (w : World) (vec u : List ℝ) (epsilon : ℝ) : Op where
  calls :=
    if w.size > 1 then
      getNeighData w vec k ++ getExtraPeriodicData w vec k ++ (getNeighData w u (k + 1) ++ getExtraPeriodicData w u (k + 1))
    else []
  value b :=
    let h := halo w k b
    let hu := halo w (k + 1) b
    cells w fun j i =>
      let indx := j * w.n + i
      let x :=
        if i = 0 then add (mul vec[indx + 1]? u[indx + 1]?) (mul (near h .left j) (near hu .left j))
        else if i = w.n - 1 then add (mul vec[indx - 1]? u[indx - 1]?) (mul (near h .right j) (near hu .right j))
        else add (mul vec[indx - 1]? u[indx - 1]?) (mul vec[indx + 1]? u[indx + 1]?)
      let y :=
        if j = 0 then add (mul (near h .bottom i) (near hu .bottom i)) (mul vec[indx + w.n]? u[indx + w.n]?)
        else if j = w.n - 1 then add (mul (near h .top i) (near hu .top i)) (mul vec[indx - w.n]? u[indx - w.n]?)
        else add (mul vec[indx - w.n]? u[indx - w.n]?) (mul vec[indx + w.n]? u[indx + w.n]?)
      (add (add (mul (vec[indx]?.map fun c => -4 * c) u[indx]?) x) y).map fun v => 2 * epsilon * (v / w.dx ^ 2)

/-- `laplacianPeriodic(vec, epsilon, world)` (JTV.py:559-617) -/
def laplacianPeriodic (k : Nat) (w : World) (vec : List ℝ) (epsilon : ℝ) : Op where
  calls := if w.size > 1 then getNeighData w vec k ++ getExtraPeriodicData w vec k else []
  value b :=
    let h := halo w k b
    cells w fun j i =>
      let indx := j * w.n + i
      let x :=
        if i = 0 then add vec[indx + 1]? (near h .left j)
        else if i = w.n - 1 then add vec[indx - 1]? (near h .right j)
        else add vec[indx - 1]? vec[indx + 1]?
      let y :=
        if j = 0 then add (near h .bottom i) vec[indx + w.n]?
        else if j = w.n - 1 then add (near h .top i) vec[indx - w.n]?
        else add vec[indx - w.n]? vec[indx + w.n]?
      (add (add (vec[indx]?.map fun c => -4 * c) x) y).map fun v => epsilon * (v / w.dx ^ 2)

/-- `laplacianUsquared(vec, world)` (JTV.py:622-681) -/
def laplacianUsquared (k : Nat) (w : World) (vec : List ℝ) : Op where
  calls := if w.size > 1 then getNeighData w vec k ++ getExtraPeriodicData w vec k else []
  value b :=
    let h := halo w k b
    cells w fun j i =>
      let indx := j * w.n + i
      let x :=
        if i = 0 then add (sq vec[indx + 1]?) (sq (near h .left j))
        else if i = w.n - 1 then add (sq vec[indx - 1]?) (sq (near h .right j))
        else add (sq vec[indx - 1]?) (sq vec[indx + 1]?)
      let y :=
        if j = 0 then add (sq (near h .bottom i)) (sq vec[indx + w.n]?)
        else if j = w.n - 1 then add (sq (near h .top i)) (sq vec[indx - w.n]?)
        else add (sq vec[indx - w.n]?) (sq vec[indx + w.n]?)
      (add (add (vec[indx]?.map fun c => -4 * c ^ 2) x) y).map fun v => v / w.dx ^ 2

/-- `advectionDirichlet(vec, alpha, world)` (JTV.py:685-768) -/
def advectionDirichlet (k : Nat) (w : World) (vec : List ℝ) (alpha : ℝ) : Op where
  calls := if w.size > 1 then getNeighData w vec k else []
  value b :=
    let h := halo w k b
    cells w fun j i =>
      let indx := j * w.n + i
      let x :=
        if i = 0 then
          if w.procX = 0 then vec[indx + 1]? else sub vec[indx + 1]? (near h .left j)
        else if i = w.n - 1 then
          if w.procX = w.procs - 1 then vec[indx - 1]?.map fun v => -v else sub (near h .right j) vec[indx - 1]?
        else sub vec[indx + 1]? vec[indx - 1]?
      let y :=
        if j = 0 then
          if w.procY = 0 then vec[indx + w.n]? else sub vec[indx + w.n]? (near h .bottom i)
        else if j = w.n - 1 then
          if w.procY = w.procs - 1 ∧ w.size - 1 ≠ 0 then vec[indx - w.n]?.map fun v => -v
          else sub (near h .top i) vec[indx - w.n]?
        else sub vec[indx + w.n]? vec[indx - w.n]?
      (add x y).map fun v => alpha * (v / (2 * w.dx))

/-- `advectionNeumann(vec, alpha, world)` (JTV.py:772-859) -/
def advectionNeumann (k : Nat) (w : World) (vec : List ℝ) (alpha : ℝ) : Op where
  calls := if w.size > 1 then getNeighData w vec k else []
  value b :=
    let h := halo w k b
    let boundary := fun a c : Option ℝ => (sub a c).map fun v => 4 / 3 * v
    cells w fun j i =>
      let indx := j * w.n + i
      let x :=
        if i = 0 then
          if w.procX = 0 then boundary vec[indx + 1]? vec[indx]? else sub vec[indx + 1]? (near h .left j)
        else if i = w.n - 1 then
          if w.procX = w.procs - 1 then boundary vec[indx]? vec[indx - 1]? else sub (near h .right j) vec[indx - 1]?
        else sub vec[indx + 1]? vec[indx - 1]?
      let y :=
        if j = 0 then
          if w.procY = 0 then boundary vec[indx + w.n]? vec[indx]? else sub vec[indx + w.n]? (near h .bottom i)
        else if j = w.n - 1 then
          if w.procY = w.procs - 1 then boundary vec[indx]? vec[indx - w.n]? else sub (near h .top i) vec[indx - w.n]?
        else sub vec[indx + w.n]? vec[indx - w.n]?
      (add x y).map fun v => alpha * (v / (2 * w.dx))

/-- `advectionPeriodic(vec, alpha, world)` (JTV.py:863-953); both branches on the position of the process are the same there -/
def advectionPeriodic (k : Nat) (w : World) (vec : List ℝ) (alpha : ℝ) : Op where
  calls := if w.size > 1 then getNeighData w vec k ++ getExtraPeriodicData w vec k else []
  value b :=
    let h := halo w k b
    cells w fun j i =>
      let indx := j * w.n + i
      let x :=
        if i = 0 then sub vec[indx + 1]? (near h .left j)
        else if i = w.n - 1 then sub (near h .right j) vec[indx - 1]?
        else sub vec[indx + 1]? vec[indx - 1]?
      let y :=
        if j = 0 then sub vec[indx + w.n]? (near h .bottom i)
        else if j = w.n - 1 then sub (near h .top i) vec[indx - w.n]?
        else sub vec[indx + w.n]? vec[indx - w.n]?
      (add x y).map fun v => alpha * (v / (2 * w.dx))

/-- `nonLinAdvecDirichlet(vec, u, alpha, world)` (JTV.py:958-1057) -/
def nonLinAdvecDirichlet (k : Nat) (w : World) (vec u : List ℝ) (alpha : ℝ) : Op where
  calls := if w.size > 1 then getNeighData w vec k ++ getNeighData w u (k + 1) else []
  value b :=
    let h := halo w k b
    let hu := halo w (k + 1) b
    let minus := fun v : Option ℝ => v.map fun v => -v
    cells w fun j i =>
      let indx := j * w.n + i
      let x :=
        if i = 0 then
          if w.procX = 0 then mul vec[indx + 1]? u[indx + 1]?
          else sub (mul vec[indx + 1]? u[indx + 1]?) (mul (near h .left j) (near hu .left j))
        else if i = w.n - 1 then
          if w.procX = w.procs - 1 then mul (minus vec[indx - 1]?) u[indx - 1]?
          else sub (mul (near h .right j) (near hu .right j)) (mul vec[indx - 1]? u[indx - 1]?)
        else sub (mul vec[indx + 1]? u[indx + 1]?) (mul vec[indx - 1]? u[indx - 1]?)
      let y :=
        if j = 0 then
          if w.procY = 0 then mul vec[indx + w.n]? u[indx + w.n]?
          else sub (mul vec[indx + w.n]? u[indx + w.n]?) (mul (near h .bottom i) (near hu .bottom i))
        else if j = w.n - 1 then
          if w.procY = w.procs - 1 ∧ w.size - 1 ≠ 0 then mul (minus vec[indx - w.n]?) u[indx - w.n]?
          else sub (mul (near h .top i) (near hu .top i)) (mul vec[indx - w.n]? u[indx - w.n]?)
        else sub (mul vec[indx + w.n]? u[indx + w.n]?) (mul vec[indx - w.n]? u[indx - w.n]?)
      (add x y).map fun v => alpha * (v / (2 * w.dx))

/-- `nonLinAdvecPeriodic(vec, u, alpha, world)` (JTV.py:1072-1180); both branches on the position of the process are the same there -/
def nonLinAdvecPeriodic (k : Nat) (w : World) (vec u : List ℝ) (alpha : ℝ) : Op where
  calls :=
    if w.size > 1 then
      getNeighData w vec k ++ getExtraPeriodicData w vec k ++ (getNeighData w u (k + 1) ++ getExtraPeriodicData w u (k + 1))
    else []
  value b :=
    let h := halo w k b
    let hu := halo w (k + 1) b
    cells w fun j i =>
      let indx := j * w.n + i
      let x :=
        if i = 0 then sub (mul vec[indx + 1]? u[indx + 1]?) (mul (near h .left j) (near hu .left j))
        else if i = w.n - 1 then sub (mul (near h .right j) (near hu .right j)) (mul vec[indx - 1]? u[indx - 1]?)
        else sub (mul vec[indx + 1]? u[indx + 1]?) (mul vec[indx - 1]? u[indx - 1]?)
      let y :=
        if j = 0 then sub (mul vec[indx + w.n]? u[indx + w.n]?) (mul (near h .bottom i) (near hu .bottom i))
        else if j = w.n - 1 then sub (mul (near h .top i) (near hu .top i)) (mul vec[indx - w.n]? u[indx - w.n]?)
        else sub (mul vec[indx + w.n]? u[indx + w.n]?) (mul vec[indx - w.n]? u[indx - w.n]?)
      (add x y).map fun v => alpha * (v / (2 * w.dx))

/-- `advectionUsquaredDir(vec, world)` (JTV.py:1185-1267) -/
def advectionUsquaredDir (k : Nat) (w : World) (vec : List ℝ) : Op where
  calls := if w.size > 1 then getNeighData w vec k else []
  value b :=
    let h := halo w k b
    cells w fun j i =>
      let indx := j * w.n + i
      let x :=
        if i = 0 then
          if w.procX = 0 then sq vec[indx + 1]? else sub (sq vec[indx + 1]?) (sq (near h .left j))
        else if i = w.n - 1 then
          if w.procX = w.procs - 1 then (sq vec[indx - 1]?).map fun v => -v else sub (sq (near h .right j)) (sq vec[indx - 1]?)
        else sub (sq vec[indx + 1]?) (sq vec[indx - 1]?)
      let y :=
        if j = 0 then
          if w.procY = 0 then sq vec[indx + w.n]? else sub (sq vec[indx + w.n]?) (sq (near h .bottom i))
        else if j = w.n - 1 then
          if w.procY = w.procs - 1 ∧ w.size - 1 ≠ 0 then (sq vec[indx - w.n]?).map fun v => -v
          else sub (sq (near h .top i)) (sq vec[indx - w.n]?)
        else sub (sq vec[indx + w.n]?) (sq vec[indx - w.n]?)
      (add x y).map fun v => v / (4 * w.dx)

/-- `advectionUsquared(vec, world)` (JTV.py:1274-1363); both branches on the position of the process are the same there -/
def advectionUsquared (k : Nat) (w : World) (vec : List ℝ) : Op where
  calls := if w.size > 1 then getNeighData w vec k ++ getExtraPeriodicData w vec k else []
  value b :=
    let h := halo w k b
    cells w fun j i =>
      let indx := j * w.n + i
      let x :=
        if i = 0 then sub (sq vec[indx + 1]?) (sq (near h .left j))
        else if i = w.n - 1 then sub (sq (near h .right j)) (sq vec[indx - 1]?)
        else sub (sq vec[indx + 1]?) (sq vec[indx - 1]?)
      let y :=
        if j = 0 then sub (sq vec[indx + w.n]?) (sq (near h .bottom i))
        else if j = w.n - 1 then sub (sq (near h .top i)) (sq vec[indx - w.n]?)
        else sub (sq vec[indx + w.n]?) (sq vec[indx - w.n]?)
      (add x y).map fun v => v / (4 * w.dx)

/-! ## Right-hand sides and Jacobian products -/

/-- sum of two arrays of the same length -/
def addV (a b : List ℝ) : List ℝ := List.zipWith (· + ·) a b

/-- difference of two arrays of the same length -/
def subV (a b : List ℝ) : List ℝ := List.zipWith (· - ·) a b

/-- product of two arrays of the same length -/
def mulV (a b : List ℝ) : List ℝ := List.zipWith (· * ·) a b

/-- number times array -/
def scaleV (c : ℝ) (a : List ℝ) : List ℝ := a.map fun x => c * x

/-- `allencahn_rhs(u, epsilon, world)` (rhs_jac_pdefuncs.py:24-35) -/
def allencahn_rhs (w : World) (u : List ℝ) (epsilon : ℝ) : Op where
  calls := (laplacianNeumann 0 w u epsilon).calls
  value b := do
    let lap ← (laplacianNeumann 0 w u epsilon).value b
    let other := subV u (u.map fun x => x ^ 3)
    pure (addV lap other)

/-- `allencahn_jtv(vec, u, dt, epsilon, alpha, gamma, world)` (rhs_jac_pdefuncs.py:41-52) -/
def allencahn_jtv (w : World) (vec u : List ℝ) (dt epsilon : ℝ) : Op where
  calls := (laplacianNeumann 0 w vec epsilon).calls
  value b := do
    let lap ← (laplacianNeumann 0 w vec epsilon).value b
    let other := subV vec (mulV (u.map fun x => 3 * x ^ 2) vec)
    pure (scaleV dt (addV lap other))

/-- `adr_rhs(vec, epsilon, alpha, gamma, world)` (rhs_jac_pdefuncs.py:62-76) -/
def adr_rhs (w : World) (vec : List ℝ) (epsilon alpha gamma : ℝ) : Op where
  calls := (laplacianNeumann 0 w vec epsilon).calls ++ (advectionNeumann 1 w vec alpha).calls
  value b := do
    let lap ← (laplacianNeumann 0 w vec epsilon).value b
    let advec ← (advectionNeumann 1 w vec alpha).value b
    let reaction := mulV (mulV (scaleV gamma vec) (vec.map fun x => x - 1 / 2)) (vec.map fun x => 1 - x)
    pure (addV (subV lap advec) reaction)

/-- `adr_jtv(vec, u, dt, epsilon, alpha, gamma, world)` (rhs_jac_pdefuncs.py:82-96) -/
def adr_jtv (w : World) (vec u : List ℝ) (dt epsilon alpha gamma : ℝ) : Op where
  calls := (laplacianNeumann 0 w vec epsilon).calls ++ (advectionNeumann 1 w vec alpha).calls
  value b := do
    let lap ← (laplacianNeumann 0 w vec epsilon).value b
    let advec ← (advectionNeumann 1 w vec alpha).value b
    let reaction := mulV (scaleV gamma (u.map fun x => 3 * x - 3 * x ^ 2 - 1 / 2)) vec
    pure (scaleV dt (addV (subV lap advec) reaction))

/-- `porous_rhs(vec, alpha, world)` (rhs_jac_pdefuncs.py:106-117) -/
def porous_rhs (w : World) (vec : List ℝ) (alpha : ℝ) : Op where
  calls := (advectionPeriodic 0 w vec alpha).calls ++ (laplacianUsquared 1 w vec).calls
  value b := do
    let advec ← (advectionPeriodic 0 w vec alpha).value b
    let lap ← (laplacianUsquared 1 w vec).value b
    pure (addV lap advec)

/-- `porous_jtv(vec, u, dt, epsilon, alpha, gamma, world)` (rhs_jac_pdefuncs.py:123-136) -/
def porous_jtv (w : World) (vec u : List ℝ) (dt alpha : ℝ) : Op where
  calls := (advectionPeriodic 0 w vec alpha).calls ++ (nonLinLapPeriodic 1 w vec u 1).calls
  value b := do
    let advec ← (advectionPeriodic 0 w vec alpha).value b
    let lap ← (nonLinLapPeriodic 1 w vec u 1).value b
    pure (scaleV dt (addV lap advec))

/-- `burgers_rhs(vec, epsilon, alpha, world)` (rhs_jac_pdefuncs.py:148-161) -/
def burgers_rhs (w : World) (vec : List ℝ) (epsilon alpha : ℝ) : Op where
  calls := (laplacianDirichlet 0 w vec epsilon).calls ++ (advectionUsquaredDir 1 w vec).calls
  value b := do
    let lap ← (laplacianDirichlet 0 w vec epsilon).value b
    let advec ← (advectionUsquaredDir 1 w vec).value b
    pure (subV lap (scaleV alpha advec))

/-- `burgers_jtv(vec, u, dt, epsilon, alpha, gamma, world)` (rhs_jac_pdefuncs.py:167-179) -/
def burgers_jtv (w : World) (vec u : List ℝ) (dt epsilon alpha : ℝ) : Op where
  calls := (laplacianDirichlet 0 w vec epsilon).calls ++ (nonLinAdvecDirichlet 1 w vec u alpha).calls
  value b := do
    let lap ← (laplacianDirichlet 0 w vec epsilon).value b
    let advec ← (nonLinAdvecDirichlet 1 w vec u alpha).value b
    pure (scaleV dt (subV lap advec))

end

end WxVerif.StiffPdes
