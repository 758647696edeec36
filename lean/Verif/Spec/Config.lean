import Verif.Model.Config

/-!
# Specifications for the configuration: allowed values, active options, value of an expression
-/

namespace WxVerif.ConfigSpec

open WxVerif.Config

/-- the scalars a value is made of -/
def elements {α : Type*} : Value α → List α
  | .scalar a => [a]
  | .list l => l

/-- the value respects the declared list of choices, minimum and maximum -/
def Allowed {α : Type*} [LinearOrder α] (r : Range α) (v : Value α) : Prop :=
  ∀ a ∈ elements v, (∀ sel, r.selectables = some sel → a ∈ sel) ∧ (∀ lo, r.min = some lo → lo ≤ a) ∧
    (∀ hi, r.max = some hi → a ≤ hi)

/-- an option applies when it depends on nothing, or its parent has one of the listed values -/
def Active {V : Type*} (attrs : String → Option V) (f : Opt V) : Prop :=
  ∀ parent values, f.dependency = some (parent, values) → ∃ v, attrs parent = some v ∧ v ∈ values

/-- `Denotes pi e x`: the expression `e` has the mathematical value `x` -/
inductive Denotes {K : Type*} [_root_.Field K] (pi : K) : Ast K → K → Prop
  | num (x : K) : Denotes pi (.num x) x
  | pi (n : String) : n.toLower = "pi" → Denotes pi (.name n) pi
  | add {l r a b} : Denotes pi l a → Denotes pi r b → Denotes pi (.bin l .add r) (a + b)
  | sub {l r a b} : Denotes pi l a → Denotes pi r b → Denotes pi (.bin l .sub r) (a - b)
  | mul {l r a b} : Denotes pi l a → Denotes pi r b → Denotes pi (.bin l .mult r) (a * b)
  | div {l r a b} : Denotes pi l a → Denotes pi r b → b ≠ 0 → Denotes pi (.bin l .div r) (a / b)
  | neg {e a} : Denotes pi e a → Denotes pi (.un .usub e) (-a)

end WxVerif.ConfigSpec
