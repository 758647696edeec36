/-!
# Model of `wx_factory/wx_mpi.py`

Each context is described by what every process of the communicator does; `bcast` and `allreduce` are modelled by
their standard MPI semantics (every process obtains the root's value / the sum of all contributions).
-/

universe u v

namespace WxVerif.Mpi

/-- Python values that can be stored in `return_value`: `None`, an instance of the private class
`_SkippableFailure` (wx_mpi.py:12-13), or anything else. -/
inductive Val (V : Type u) where
  | none
  | failure
  | other (v : V)
  deriving DecidableEq, Repr

/-- Exceptions: `_Skip` (wx_mpi.py:8-9) raised by `Conditional` on idle processes, or one raised by user code. -/
inductive Exc (E : Type v) where
  | skip
  | user (e : E)
  deriving DecidableEq, Repr

/-- How a process leaves a `with` block. -/
inductive Outcome (V : Type u) (E : Type v) where
  | normal (returnValue : Val V)
  | raised (e : Exc E)
  deriving DecidableEq, Repr

/-- What running the body on the root does: the value of `return_value` at the end and the exception that left the
body, if any. -/
structure Body (V : Type u) (E : Type v) where
  ret : Val V
  exc : Option E

/-- `self.should_skip = self.rank != self.root_rank` (wx_mpi.py:75). -/
def shouldSkip (root rank : Nat) : Bool := rank != root

/-- Does this process execute the body? `Conditional.__enter__` (wx_mpi.py:139-146) raises `_Skip` otherwise. -/
def executes (root rank : Nat) : Bool := !shouldSkip root rank

variable {V : Type u} {E : Type v}

/-- Exception that reaches `SingleProcess.__exit__` on a process (wx_mpi.py:139-149): `_Skip` on idle processes, the
body's own exception on the root. -/
def innerExc (root : Nat) (b : Body V E) (rank : Nat) : Option (Exc E) :=
  if shouldSkip root rank then some .skip else b.exc.map .user

/-- `return_value` of a process when `__exit__` starts: only the root ran the body (wx_mpi.py:74). -/
def innerRet (root : Nat) (b : Body V E) (rank : Nat) : Val V :=
  if shouldSkip root rank then .none else b.ret

/-- `transmit` (wx_mpi.py:89-90). -/
def transmit (root : Nat) (b : Body V E) (rank : Nat) : Val V :=
  let isOk := (innerExc root b rank).isNone || shouldSkip root rank
  if isOk then innerRet root b rank else .failure

/-- `comm.bcast(x, root)`: every process obtains the root's value. -/
def bcast {α : Type u} (root : Nat) (x : Nat → α) (_rank : Nat) : α := x root

/-- `with SingleProcess(comm, root) as s, Conditional(s): body` (wx_mpi.py:81-94): how process `rank` leaves it.
`__exit__` returning true swallows the exception; returning false re-raises it, and does nothing if there is
none. -/
def singleProcess (root : Nat) (b : Body V E) (rank : Nat) : Outcome V E :=
  let received := bcast root (transmit root b) rank
  let ignoreError := match received with | .failure => false | _ => true
  match innerExc root b rank with
  | none => .normal received
  | some e => if ignoreError then .normal received else .raised e

/-- `do_once(action, *args, comm)` (wx_mpi.py:152-165), root 0: `action` returns a value or raises. -/
def doOnce (action : Except E (Val V)) (rank : Nat) : Outcome V E :=
  match action with
  | .ok v => singleProcess 0 ⟨v, none⟩ rank
  | .error e => singleProcess 0 ⟨.none, some e⟩ rank

/-- How the body of `with MultipleProcesses(comm, n) as m, Conditional(m)` ends on one process (wx_mpi.py:97-119). -/
inductive BodyEnd (E : Type v) where
  /-- idle process (`rank ≥ num_procs`): `_Skip` -/
  | skipped
  | finished
  | failed (e : E)
  deriving DecidableEq, Repr

/-- `num_errors` (wx_mpi.py:113-115). -/
def numErrors : BodyEnd E → Nat
  | .failed _ => 1
  | _ => 0

/-- How process `rank` leaves a `MultipleProcesses` block (wx_mpi.py:112-119): `none` = normally. `bodies` lists the
body outcome of every process of the communicator. -/
def multipleProcesses (bodies : List (BodyEnd E)) (rank : Nat) : Option (Exc E) :=
  let totalErrors := (bodies.map numErrors).sum
  let swallow := totalErrors == 0
  match bodies[rank]? with
  | some .skipped => if swallow then none else some .skip
  | some (.failed e) => if swallow then none else some (.user e)
  | _ => none

end WxVerif.Mpi
