import Verif.Model.Assembly

/-!
# Model: the preconditioner by factorization

`precondition/factorization.py`, with its calls by `integrators/integrator.py` and the matrix files it leaves in the output directory over several
runs.  The matrix is assembled by `gen_matrix` (`Model/Assembly.lean`), which needs all processes.  `scipy.sparse.linalg.splu` and `spilu`, the hash
functions and the operator of each step are parameters.  Exceptions are values with the name of their class.
-/

namespace WxVerif.Factorization

open WxVerif.Assembly

/-- the operator of a step on all processes, as in `Model/Assembly.lean` -/
abbrev Operator (R : Type) := (Nat → Nat → R) → Nat → Nat → R

/-- the options read in `precondition/factorization.py` lines 15-40, and some of those that are not (`startingStep`, `timeIntegrator`, `tolerance`) -/
structure Config where
  preconditioner : String
  outputDir : String
  dt : Rat
  caseNumber : Int
  equations : String
  gridType : String
  jacobianMethod : String
  numSolpts : Nat
  elemsHoriz : Nat
  elemsVert : Nat
  startingStep : Nat
  timeIntegrator : String
  tolerance : Rat

/-- the tuple `values`, `precondition/factorization.py` lines 26-36 -/
structure Values where
  dt : Rat
  caseNumber : Int
  size : Nat
  equations : Nat
  gridType : Nat
  jacobianMethod : Nat
  numSolpts : Nat
  elemsHoriz : Nat
  elemsVert : Nat

/-- `str_hash` (`md5`) and the hash of a tuple, `precondition/factorization.py` lines 23-24 and 38 -/
structure Hashes where
  str : String → Nat
  tuple : Values → Int

/-- `precondition/factorization.py` lines 26-36 -/
def values (h : Hashes) (c : Config) (size : Nat) : Values :=
  ⟨c.dt, c.caseNumber, size, h.str c.equations, h.str c.gridType, h.str c.jacobianMethod, c.numSolpts, c.elemsHoriz, c.elemsVert⟩

/-- name of a file: the directory, the number in it, the rank -/
abbrev Name := String × Nat × Nat

/-- `self.matrix_file`, `precondition/factorization.py` lines 38-40: the last 48 bits of the hash -/
def matrixFile (h : Hashes) (c : Config) (size rank : Nat) : Name := (c.outputDir, (h.tuple (values h c size) % 2 ^ 48).toNat, rank)

/-- a file: not there, a matrix, or only part of one because the process was killed while it wrote the file -/
inductive File (R : Type) where
  | absent
  | whole (m : Mat R)
  | broken

def File.isAbsent {R : Type} : File R → Bool
  | .absent => true
  | _ => false

def File.isBroken {R : Type} : File R → Bool
  | .broken => true
  | _ => false

def File.isWhole {R : Type} : File R → Bool
  | .whole _ => true
  | _ => false

/-- the matrix in a file -/
def File.matrix {R : Type} [Zero R] : File R → Mat R
  | .whole m => m
  | _ => ⟨0, 0, fun _ _ => 0⟩

abbrev Disk (R : Type) := Name → File R

/-- `splu` and `spilu`: they raise, or give the function `solve` of the factorization -/
structure Library (R : Type) where
  splu : Mat R → Except String ((Nat → R) → Nat → R)
  spilu : Mat R → Except String ((Nat → R) → Nat → R)

/-- `precondition/factorization.py` lines 52-55; any other type of preconditioner gets no factorization -/
def factorize {R : Type} (lib : Library R) (type : String) (m : Mat R) : Except String (Option ((Nat → R) → Nat → R)) :=
  if type = "lu" then (lib.splu m).map some else if type = "ilu" then (lib.spilu m).map some else .ok none

/-- `assembled_mat` and `factorization` of the processes -/
structure Prepared (R : Type) where
  mat : Nat → Mat R
  solver : Nat → Option ((Nat → R) → Nat → R)

/-- what the call ends with: `hang` if some processes wait for messages that the others never send -/
inductive Outcome (α : Type) where
  | ok (a : α)
  | raised (e : String)
  | hang

/-- lines 52-55 on all processes: the first exception ends the program -/
def factorizeAll {R : Type} (lib : Library R) (type : String) (mat : Nat → Mat R) : Nat → Outcome (Nat → Option ((Nat → R) → Nat → R))
  | 0 => .ok fun _ => none
  | r + 1 => match factorizeAll lib type mat r with
    | .ok f => match factorize lib type (mat r) with
      | .ok s => .ok fun k => if k = r then s else f k
      | .error e => .raised e
    | .raised e => .raised e
    | .hang => .hang

/-- lines 52-55 with the matrices of all processes -/
def withMatrices {R : Type} (lib : Library R) (type : String) (size : Nat) (mat : Nat → Mat R) : Outcome (Option (Prepared R)) :=
  match factorizeAll lib type mat size with
  | .ok f => .ok (some ⟨mat, f⟩)
  | .raised e => .raised e
  | .hang => .hang

/-- a run: its options, the number of processes, the number of values of each process, and the operators of its steps -/
structure Run (R : Type) where
  config : Config
  size : Nat
  n : Nat
  ops : List (Operator R)

/-- the files of the processes of a run -/
def Run.file {R : Type} (h : Hashes) (r : Run R) (rank : Nat) : Name := matrixFile h r.config r.size rank

/-- all processes have saved the matrix, `solvers/eigenvalue_util.py` lines 90-97 -/
def saveAll {R : Type} [Zero R] [One R] (h : Hashes) (r : Run R) (mv : Operator R) (disk : Disk R) : Disk R := fun nm =>
  if nm.2.2 < r.size ∧ nm = r.file h nm.2.2 then .whole (genLocal mv r.size r.n nm.2.2) else disk nm

/-- `prepare`, `precondition/factorization.py` lines 42-55, on all processes.  A broken file raises `BadZipFile`, which is not an `OSError` (lines
44-47).  `gen_matrix` needs all processes: if only some call it, they wait for ever. -/
def prepare {R : Type} [Zero R] [One R] (h : Hashes) (lib : Library R) (r : Run R) (mv : Operator R) (state : Option (Prepared R)) (disk : Disk R) :
    Outcome (Option (Prepared R)) × Disk R :=
  match state with
  | some p => (.ok (some p), disk)
  | none =>
    if (List.range r.size).any (fun k => (disk (r.file h k)).isBroken) then (.raised "BadZipFile", disk)
    else if (List.range r.size).all (fun k => (disk (r.file h k)).isAbsent) then
      (withMatrices lib r.config.preconditioner r.size (genLocal mv r.size r.n), saveAll h r mv disk)
    else if (List.range r.size).any (fun k => (disk (r.file h k)).isAbsent) then (.hang, disk)
    else (withMatrices lib r.config.preconditioner r.size (fun k => (disk (r.file h k)).matrix), disk)

/-- the calls of `prepare` in the steps of a run, `integrators/integrator.py` lines 76-81: `__prestep__` of `Ros2` has made the operator of the step
(`integrators/ros2.py` lines 26-32) -/
def steps {R : Type} [Zero R] [One R] (h : Hashes) (lib : Library R) (r : Run R) :
    List (Operator R) → Option (Prepared R) → Disk R → Outcome (Option (Prepared R)) × Disk R
  | [], s, d => (.ok s, d)
  | mv :: L, s, d => match prepare h lib r mv s d with
    | (.ok s', d') => steps h lib r L s' d'
    | (.raised e, d') => (.raised e, d')
    | (.hang, d') => (.hang, d')

/-- `__apply__` on process `rank`, `precondition/factorization.py` lines 57-64 -/
def apply {R : Type} (s : Option (Prepared R)) (rank : Nat) (v : Nat → R) : Except String (Nat → R) :=
  match s with
  | some p => match p.solver rank with
    | some f => .ok (f v)
    | none => .error "ValueError"
  | none => .error "ValueError"

/-- `Integrator.step`, `integrators/integrator.py` lines 76-86: without an attribute `A` a message is printed and nothing prepared -/
def stepPrepare {R : Type} [Zero R] [One R] (h : Hashes) (lib : Library R) (r : Run R) (A : Option (Operator R)) (s : Option (Prepared R)) (d : Disk R) :
    Outcome (Option (Prepared R)) × Disk R :=
  match A with
  | some mv => prepare h lib r mv s d
  | none => (.ok s, d)

/-- what a killed process leaves of its file -/
inductive Left where
  | nothing | part | all

/-- files left if the processes are killed while they save the matrix -/
def killedAt {R : Type} [Zero R] [One R] (h : Hashes) (r : Run R) (mv : Operator R) (left : Nat → Left) (disk : Disk R) : Disk R := fun nm =>
  if nm.2.2 < r.size ∧ nm = r.file h nm.2.2 then
    match left nm.2.2 with
    | .nothing => .absent
    | .part => .broken
    | .all => .whole (genLocal mv r.size r.n nm.2.2)
  else disk nm

/-- what happens to a directory: a run, or a run that is killed while its processes save their matrices in the first step.  (A run that is killed at
another time leaves the files of a run with fewer steps.) -/
inductive Event (R : Type) where
  | run (r : Run R)
  | killed (r : Run R) (left : Nat → Left)

/-- the run of an event -/
def Event.theRun {R : Type} : Event R → Run R
  | .run r => r
  | .killed r _ => r

/-- the files after an event -/
def play {R : Type} [Zero R] [One R] (h : Hashes) (lib : Library R) (disk : Disk R) : Event R → Disk R
  | .run r => (steps h lib r r.ops none disk).2
  | .killed r left => match r.ops with
    | [] => disk
    | mv :: _ => if (List.range r.size).all (fun k => (disk (r.file h k)).isAbsent) then killedAt h r mv left disk else disk

/-- the files after a history -/
def playAll {R : Type} [Zero R] [One R] (h : Hashes) (lib : Library R) (disk : Disk R) (H : List (Event R)) : Disk R := H.foldl (play h lib) disk

/-- a directory without matrix files -/
def empty {R : Type} : Disk R := fun _ => .absent

end WxVerif.Factorization
