import Verif.Model.MainScript

/-!
# Specification: what the user of a batch system sees of a run
-/

namespace WxVerif.Spec.MainScript

open WxVerif.MainScript

/-- every process ends with status 0: the launcher reports success -/
def LooksFine {E T : Type*} (w : World E T) : Prop := ∀ r, r < w.size → exitStatus (main w r) = some 0

/-- no process prints a traceback -/
def Silent {E T : Type*} (w : World E T) : Prop := ∀ r, r < w.size → traceback (main w r) = none

/-- all processes import the package and process 0 reads the options `a` -/
def Starts {E T : Type*} (w : World E T) (a : Args) : Prop := (∀ r, r < w.size → w.imports r = .done) ∧ w.command = .ok a

/-- the simulation fails on process `r` with the exception `x`, in its construction or later -/
def FailsOn {E T : Type*} (w : World E T) (a : Args) (r : Nat) (x : Exc E) : Prop := w.body a r = .early x ∨ ∃ t, w.body a r = .late t x

end WxVerif.Spec.MainScript
