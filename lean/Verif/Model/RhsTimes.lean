import Mathlib.Algebra.Ring.Defs
import Mathlib.Algebra.Field.Rat

/-!
# The times of the stages of a right-hand side

Sources: `wx_factory/rhs/rhs.py` (`RHS.__call__`, `retrieve_last_times`, `print_times`), `wx_factory/device/device.py`
(`CpuDevice.timestamp`, `elapsed`), `wx_factory/output/solver_stats.py` (the table `rhs_timing` and the insertion into it).
The clock is a parameter: it advances by a given amount during each stage and not between the stages.
-/

namespace WxVerif.RhsTimes

/-- the eight stages of an evaluation in the order in which `RHS.__call__` runs them (`rhs.py` 88–115) -/
inductive Stage where
  | solutionExtrapolation | startCommunication | pointwiseFluxes | fluxDivergencePartial
  | endCommunication | riemannFluxes | fluxDivergence | forcingTerms
deriving DecidableEq

/-- the stages in the order of the calls (`rhs.py` 91, 94, 98, 102, 105, 109, 113, 117) -/
def order : List Stage :=
  [.solutionExtrapolation, .startCommunication, .pointwiseFluxes, .fluxDivergencePartial, .endCommunication, .riemannFluxes,
   .fluxDivergence, .forcingTerms]

/-- the list `timestamps` after an evaluation that began at time `t` (`rhs.py` 88–118): the time before the first stage and the time
    after each stage; `d` is how long each stage took -/
def stamps {K : Type} [Add K] (d : Stage → K) : K → List Stage → List K
  | t, [] => [t]
  | t, s :: ss => t :: stamps d (t + d s) ss

/-- the differences of consecutive entries (`device.py` 114) -/
def intervals {K : Type} [Sub K] : List K → List K
  | a :: b :: rest => (b - a) :: intervals (b :: rest)
  | _ => []

/-- `CpuDevice.elapsed` (`device.py` 113–116); `none` is the `IndexError` on an empty list.  `CudaDevice.elapsed` (210–214) asks the
    device for the same differences. -/
def elapsed {K : Type} [Sub K] (ts : List K) : Option (List K) :=
  match ts.head?, ts.getLast? with
  | some a, some z => some (intervals ts ++ [z - a])
  | _, _ => none

/-- the columns of `rhs_timing` after the three that identify the row (`solver_stats.py` 164–172) -/
inductive Column where
  | extrapolation | startComm | pointwiseFlux | fluxDiv1 | endComm | riemann | fluxDiv2 | forcing | total
deriving DecidableEq

/-- their order in the table (`solver_stats.py` 164–172) -/
def columns : List Column := [.extrapolation, .startComm, .pointwiseFlux, .fluxDiv1, .endComm, .riemann, .fluxDiv2, .forcing, .total]

/-- the values inserted for one evaluation, by column (`solver_stats.py` 287–299): nothing but a message is produced unless there are nine -/
def row {K : Type} (times : List K) : Option (List (Column × K)) :=
  if times.length = 9 then some (columns.zip times) else none

/-- the printed averages (`rhs.py` 190–213) in milliseconds, by label, from the timings of at least one evaluation; `none` stands for the
    warnings and undefined numbers without an evaluation, or with one of another length -/
def printed {K : Type} [DivisionRing K] (timings : List (List K)) : Option (List (Column × K)) :=
  if timings ≠ [] ∧ ∀ t ∈ timings, t.length = 9 then
    some (((List.range 9).map fun i => (timings.map fun t => t.getD i 0).sum / timings.length * 1000) |> columns.zip)
  else none

end WxVerif.RhsTimes
