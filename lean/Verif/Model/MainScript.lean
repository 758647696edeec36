import Verif.Model.Simulation

/-!
# Model of the script `WxFactory`, of `OutputManager.finalize` and of how a process ends

What a process does is described by how its three stages end: importing the package, reading the command line (process 0 only) and
the body of the `try` statement, which creates and runs the simulation.  `E` are the errors, `T` the times in seconds.
-/

universe u v

namespace WxVerif.MainScript

/-- Exceptions told apart by the script (WxFactory:113-117): subclasses of `Exception`, `KeyboardInterrupt` and `SystemExit` with its
code. -/
inductive Exc (E : Type u) where
  | error (e : E)
  | interrupt
  | sysExit (code : Int)
  deriving DecidableEq, Repr

/-- How importing the package ends on a process (WxFactory:41-48). -/
inductive Imported (E : Type u) where
  | done
  /-- `ImportError` or `NameError` -/
  | missing (e : E)
  /-- any other exception -/
  | other (x : Exc E)
  deriving DecidableEq, Repr

/-- The options used after the command line has been read (WxFactory:51-77). -/
structure Args where
  showEveryCrash : Bool
  deriving DecidableEq, Repr

/-- How the body of the `try` statement ends on a process (WxFactory:87-111). -/
inductive Tried (E : Type u) (T : Type v) where
  /-- `sim.run()` came back after `total` seconds, and the profile, if any, is written -/
  | done (total : T)
  /-- exception before `sim` is assigned (87-103) -/
  | early (x : Exc E)
  /-- exception after `sim` is assigned (106-112); `ran` is the time given to `finalize` by `sim.run()`, if it got there -/
  | late (ran : Option T) (x : Exc E)
  /-- blocked for ever in a collective operation -/
  | waits
  deriving DecidableEq, Repr

/-- How a process ends. -/
inductive Fate (E : Type u) where
  | ends
  | dies (x : Exc E)
  /-- blocked for ever in a collective operation -/
  | waits
  deriving DecidableEq, Repr

/-- Exit status of a Python process: 1 for an exception that is not caught, 130 for an interrupt, the code (modulo 256) of
`SystemExit`.  (Behaviour of the interpreter, part of the trusted base.) -/
def exitStatus {E : Type u} : Fate E → Option Nat
  | .ends => some 0
  | .dies (.error _) => some 1
  | .dies .interrupt => some 130
  | .dies (.sysExit c) => some (c % 256).toNat
  | .waits => none

/-- The exception whose traceback is printed when the process ends; none for `SystemExit`.  (Behaviour of the interpreter.) -/
def traceback {E : Type u} : Fate E → Option (Exc E)
  | .dies (.error e) => some (.error e)
  | .dies .interrupt => some .interrupt
  | _ => none

/-- Everything `main` depends on. -/
structure World (E : Type u) (T : Type v) where
  /-- number of processes -/
  size : Nat
  imports : Nat → Imported E
  /-- what process 0 gets from the command line (WxFactory:52-82): the options, or the exception: `SystemExit` by the parser,
  `ValueError` for a file that does not exist -/
  command : Except (Exc E) Args
  body : Args → Nat → Tried E T

variable {E : Type u} {T : Type v}

/-- The exception handler (WxFactory:113-140): the exception with which the process ends.  The `finally` clause always raises, so what
`finalize` raises is replaced. -/
def handler (a : Args) (rank : Nat) (x : Exc E) : Exc E :=
  if a.showEveryCrash then x
  else match x with
    | .interrupt => .sysExit 130
    | x => if rank = 0 then x else .sysExit 0

/-- Exception of the parsing section on a process: `_Skip` is a `SystemExit` without code (wx_mpi.py:8-9, 139-144). -/
def excOf : Mpi.Exc (Exc E) → Exc E
  | .skip => .sysExit 0
  | .user x => x

/-- The body of the parsing section, run by process 0 (WxFactory:51-82); `return_value` is not used. -/
def parsing (w : World E T) : Mpi.Body Unit (Exc E) :=
  match w.command with
  | .ok _ => ⟨.none, none⟩
  | .error x => ⟨.none, some x⟩

/-- `main()` (WxFactory:30-140) on one process.  A process other than 0 that gets to the end of the parsing section waits there for
process 0 (broadcast). -/
def main (w : World E T) (rank : Nat) : Fate E :=
  match w.imports rank with
  | .missing e => if rank = 0 then .dies (.error e) else .dies (.sysExit (-1))
  | .other x => .dies x
  | .done =>
    match w.imports 0 with
    | .done =>
      match Mpi.singleProcess 0 (parsing w) rank, w.command with
      | .raised x, _ => .dies (excOf x)
      | .normal _, .error _ => .waits -- unreachable
      | .normal _, .ok a =>
        match w.body a rank with
        | .done _ => .ends
        | .early x => .dies (handler a rank x)
        | .late _ x => .dies (handler a rank x)
        | .waits => .waits
    | _ => .waits

/-- `OutputManager.finalize(total_time)` (output_manager.py:188-200): the lines added to the file `runtime_*.txt` by process 0.
The summary printed by process 0 and the closing of the output file are left out. -/
def finalizeLines (storeTotalTime : Bool) (total : T) : List T := if storeTotalTime then [total] else []

/-- Lines that a run adds to the file `runtime_*.txt`: those of `sim.run()` (simulation.py:192) and those of the handler, which gives
`finalize` the time 0 if `sim` exists (WxFactory:120-124). -/
def timeLines [Zero T] (storeTotalTime : Bool) : Tried E T → List T
  | .done total => finalizeLines storeTotalTime total
  | .early _ => []
  | .late ran _ => (ran.map (finalizeLines storeTotalTime)).getD [] ++ finalizeLines storeTotalTime 0
  | .waits => []

/-- How the body of the `try` statement ends on every process, from the result of `Simulation.run()` (simulation.py:182-192), once the
simulation exists and without profile: `nan` is the `ValueError("NaN")` of `_check_for_nan`.  Simplification: when the processes
disagree on whether to go on, or the run has not ended, all are said to wait. -/
def bodyOfRun (nan : E) (total : T) : Option Sim.Result → Tried E T
  | some .stop => .done total
  | some .raised => .late none (.error nan)
  | _ => .waits

end WxVerif.MainScript
