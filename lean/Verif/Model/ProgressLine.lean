import Verif.Model.Simulation

/-!
# The progress lines of a run
-/

namespace WxVerif.Sim

variable {K I V : Type*} [Field K] [LinearOrder K] [FloorRing K]

/-- The lines `Step … of …` printed by process 0, as the pair of numbers each of them shows — `simulation/simulation.py`
lines 131 and 142-145.  One line is printed for every step that is begun; the second number does not change during a
run.  Simplification: only the two numbers are kept, not the words around them. -/
def progressLines (cfg : Config K V) (s : State K I V) : List (Nat × Int) :=
  s.steps.map fun r => (r.1, numSteps cfg + cfg.startingStep)

end WxVerif.Sim
