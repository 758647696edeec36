/-
Model of the start of a run: name of the processor, compilation of the kernels by one process, loading by all, choice of the device.
Sources: `wx_factory/compiler/compile_kernels.py`, `wx_factory/device/device.py`, `wx_factory/device/wx_cupy.py`, `wx_factory/simulation/simulation.py` 194-207.

External: the compiler (it builds the library or raises, on one process), the file system (shared by all processes), the number of GPUs that CUDA finds.
-/
import Mathlib.Data.List.Basic
import Mathlib.Data.Int.Basic

namespace WxVerif.Machine

/-! ## Name of the processor — `compile_kernels.py` 22-23, 52-73 -/

/-- word characters of a regular expression; simplification: ASCII only -/
def isWord (c : Char) : Bool := c.isAlphanum || c == '_'

/-- the text starts with a word character -/
def startsWord : List Char → Bool
  | [] => false
  | c :: _ => isWord c

/-- `(intel|amd)\b` at the start of a text — `compile_kernels.py` 23 -/
def vendorAt (l : List Char) : Option (List Char) :=
  if "intel".toList.isPrefixOf l && !startsWord (l.drop 5) then some "intel".toList
  else if "amd".toList.isPrefixOf l && !startsWord (l.drop 3) then some "amd".toList
  else none

/-- `\d{4,10}` at the start of a text: as many as possible — `compile_kernels.py` 22 -/
def numberAt (l : List Char) : Option (List Char) :=
  let d := (l.takeWhile Char.isDigit).take 10
  if 4 ≤ d.length then some d else none

/-- `re.search` of `\b` and a pattern that starts with a word character: the first place where it matches; `p`: the character before is a word character -/
def search (m : List Char → Option (List Char)) : Bool → List Char → Option (List Char)
  | _, [] => none
  | p, c :: cs => match (if p then none else m (c :: cs)) with
    | some v => some v
    | none => search m (isWord c) cs

/-- `line.split(": ")[1]` — `compile_kernels.py` 67; `none` is the `IndexError` -/
def beforeColon : List Char → List Char
  | [] => []
  | ':' :: ' ' :: _ => []
  | c :: cs => c :: beforeColon cs

@[inherit_doc beforeColon] def afterColon : List Char → Option (List Char)
  | [] => none
  | ':' :: ' ' :: rest => some (beforeColon rest)
  | _ :: cs => afterColon cs

/-- what the function returns: a name, `None`, or an exception, which ends the program because the function is called when the module is imported
    (`compile_kernels.py` 90, 137-140) -/
inductive Name where
  | name (s : List Char)
  | None
  | raises
deriving DecidableEq

/-- the name taken from a line — `compile_kernels.py` 67-70 -/
def nameOf (line : List Char) : Name :=
  match afterColon line with
  | none => .raises
  | some t =>
    let lc := t.map Char.toLower
    match search vendorAt false lc, search numberAt false lc with
    | some v, some n => .name (v ++ '_' :: n)
    | _, _ => .raises

/-- `get_processor_name` with the lines of `/proc/cpuinfo`, if there is such a file — `compile_kernels.py` 52-73 (the test of line 72 is never true: lines end with
    a newline) -/
def processorName : Option (List (List Char)) → Name
  | none => .name []
  | some lines => match lines.find? fun l => "model name".toList.isPrefixOf l with
    | none => .None
    | some line => nameOf line

/-! ## Library directories -/

inductive Backend where
  | cpp
  | cuda
deriving DecidableEq

def Backend.text : Backend → List Char
  | cpp => "cpp".toList
  | cuda => "cuda".toList

/-- the name in a path or module name: an f-string, or `os.path.join`, which raises `TypeError` for `None` — `compile_kernels.py` 93, 96 -/
def nameText : Name → Option (List Char)
  | .name s => some s
  | .None => none
  | .raises => none

/-- `lib_dir` as a list of components; `os.path.join` leaves out an empty one — `compile_kernels.py` 93 -/
def libDir (n : List Char) (b : Backend) : List (List Char) :=
  ["lib".toList, "pde".toList] ++ (if n = [] then [] else [n]) ++ [b.text]

/-- the packages of `output_module` — `compile_kernels.py` 96 -/
def modulePath (n : List Char) (b : Backend) : List (List Char) := ["lib".toList, "pde".toList, n, b.text]

/-- `importlib.import_module` finds the module — `compile_kernels.py` 185-193: every component has a name and the directory holds the library -/
def importable (built : List (List (List Char))) (n : List Char) (b : Backend) : Bool :=
  (modulePath n b).all (fun s => !s.isEmpty) && built.contains (modulePath n b)

/-! ## Device -/

/-- the GPU of process `rank` — `device.py` 160-168, with the number of GPUs it sees (positive) and `cuda_devices` -/
def chooseGpu (avail : Nat) (list : List Int) (rank : Nat) : Int :=
  let usable := list.filter fun x => decide (x < (avail : Int))
  let usable := if usable.length = 0 then (List.range avail).map Int.ofNat else usable
  usable.getD (rank % usable.length) 0

/-- the machine and the configuration: number of processes, GPUs and `/proc/cpuinfo` that each sees, `desired_device == "cuda"`, `cuda_devices`, libraries built
    earlier and whether the compiler succeeds on process 0 -/
structure Machine where
  size : Nat
  gpus : Nat → Nat
  cpuinfo : Nat → Option (List (List Char))
  wantCuda : Bool
  devices : List Int
  built : List (List (List Char))
  compiles : Backend → Bool

/-- how the start ends on a process -/
inductive Outcome where
  | cpu
  | gpu (i : Int)
  | failed
deriving DecidableEq

variable (m : Machine)

/-- which library a process compiles and loads — `simulation.py` 197-205, `device.py` 131-133: `CudaDevice` raises `ValueError` where no GPU is found, before the
    call of `compile`; every process therefore calls `compile` exactly once -/
def backend (r : Nat) : Backend := if m.wantCuda && decide (0 < m.gpus r) then .cuda else .cpp

/-- the libraries after the collective call of `compile` — `compile_kernels.py` 168-182: process 0 builds what it was asked for itself -/
def builtAfter : Option (List (List (List Char))) :=
  match nameText (processorName (m.cpuinfo 0)) with
  | none => none
  | some n => if m.compiles (backend m 0) then some (libDir n (backend m 0) :: m.built) else none

/-- `Simulation._make_device` on process `r` — `simulation.py` 194-207, `device.py` 74-93, 128-179.  When process 0 fails to compile, all fail
    (`SingleProcess.__exit__`, `wx_mpi.py` 81-97). -/
def start (r : Nat) : Outcome :=
  match nameText (processorName (m.cpuinfo r)), builtAfter m with
  | some n, some built =>
    if importable built n (backend m r) then
      if backend m r = .cuda then .gpu (chooseGpu (m.gpus r) m.devices r) else .cpu
    else .failed
  | _, _ => .failed

end WxVerif.Machine
