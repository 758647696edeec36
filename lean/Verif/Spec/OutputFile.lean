/-
What a reader expects of an output file: a value stored at a place of the six panels is the value of the field at that place.
-/
import Verif.Spec.Cube
import Verif.Spec.GlobalField
import Mathlib.Data.Real.Basic

namespace WxVerif.Spec.OutputFile

open WxVerif.Cube WxVerif.GlobalField

/-- value in row `a` and column `b` of panel `p` -/
def valueAt (F : Option (List (List (List ℝ)))) (p a b : Nat) : Option ℝ := (F.bind (·[p]?)).bind (entry · a b)

/-- `F` shows the field `f`: its six panels contain, in rows from south to north and columns from west to east, the value `f r j i` where the
point in row `j` and column `i` of the `t × t` points of tile `r` is -/
def Shows (k t : Nat) (F : Option (List (List (List ℝ)))) (f : Nat → Nat → Nat → ℝ) : Prop :=
  ∀ r < 6 * k ^ 2, ∀ j < t, ∀ i < t,
    valueAt F (placeOf k r).panel ((placeOf k r).row * t + j) ((placeOf k r).col * t + i) = some (f r j i)

/-- the file has a variable of that name and it shows the field `f` -/
def ShowsAs (k t : Nat) (vars : List (String × Option (List (List (List ℝ))))) (name : String) (f : Nat → Nat → Nat → ℝ) : Prop :=
  ∃ F, vars.lookup name = some F ∧ Shows k t F f

/-- the same, level by level -/
def ShowsLevels (k t : Nat) (vars : List (String × (Nat → Option (List (List (List ℝ)))))) (name : String)
    (f : Nat → Nat → Nat → Nat → ℝ) : Prop :=
  ∃ F, vars.lookup name = some F ∧ ∀ l, Shows k t (F l) fun r => f r l

end WxVerif.Spec.OutputFile
