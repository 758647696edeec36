import Verif.Model.Butcher
import Mathlib.Analysis.SpecialFunctions.Trigonometric.Arctan
import Mathlib.Analysis.SpecialFunctions.Pow.Real

/-!
# Model of the embedded explicit Runge-Kutta solver

Source: `wx_factory/integrators/explicit_runge_kutta.py`.  Exact real arithmetic; rounding is not modelled.
-/

namespace WxVerif.RungeKutta

/-! ## Validation of a tableau -/

/-- sum of literal fractions without reduction -/
def sumFrac : List Frac → Frac
  | [] => (0, 1)
  | x :: xs => let s := sumFrac xs; (x.1 * s.2 + s.1 * x.2, x.2 * s.2)

/-- `|x - y| > n/d` for literal fractions -/
def farther (x y : Frac) (n d : Nat) : Bool :=
  Nat.blt ((n * (x.2 * y.2))) ((x.1 * (y.2 : Int) - y.1 * (x.2 : Int)).natAbs * d)

/-- numpy shape `(rows, cols)` of a rectangular literal -/
def shape (A : List (List Frac)) : Nat × Nat := (A.length, (A.head?.map List.length).getD 0)

inductive Verdict where
  | shapeA | shapeB | shapeC | shapeE | notLower | nodeRange | order | errOrder
  | accepted (warnings : List String)
  deriving DecidableEq

/-- is some entry on or above the diagonal larger than the machine epsilon `2^-52`
    (`integrators/explicit_runge_kutta.py` 205–211)? -/
def upperEntry (A : List (List Frac)) : Bool :=
  A.zipIdx.any fun p => p.1.zipIdx.any fun q => Nat.ble p.2 q.2 && farther q.1 (0, 1) 1 (2 ^ 52)

/-- `_validate_butcher_tableau` (`integrators/explicit_runge_kutta.py` 153–244).
    The type tests are left out: the attributes of the shipped classes have the right types. -/
def validate (m : Method) : Verdict :=
  if shape m.A ≠ (m.nStages, m.nStages) then .shapeA
  else if m.B.length ≠ m.nStages then .shapeB
  else if m.C.length ≠ m.nStages then .shapeC
  else if m.Ehat.length ≠ m.nStages + 1 then .shapeE
  else if upperEntry m.A then .notLower
  else if m.C.any (fun c => decide (c.1 < 0) || decide (c.1 > (c.2 : Int))) then .nodeRange
  else
    let w1 := if farther (sumFrac m.B) (1, 1) 1 (10 ^ 10) then ["sum of B"] else []
    let w2 := (m.A.zip m.C).zipIdx.filterMap fun p =>
      if Nat.blt 0 p.2 && farther (sumFrac p.1.1) p.1.2 1 (10 ^ 10) then some "row sum" else none
    if m.order = 0 then .order
    else if m.errOrder = 0 then .errOrder
    else
      let w3 := if m.order ≤ m.errOrder then ["error_estimator_order"] else []
      .accepted (w1 ++ w2 ++ w3)

/-! ## Step size controller -/

/-- `limiter` (`integrators/explicit_runge_kutta.py` 16–30) -/
noncomputable def limiter (u kappa : ℝ) : ℝ := 1 + kappa * Real.arctan ((u - 1) / kappa)

/-- `BIG_FACTOR` (`integrators/explicit_runge_kutta.py` 13) -/
def bigFactor : ℝ := 4

/-- the table of `_init_control` (`integrators/explicit_runge_kutta.py` 257–265): kb1, kb2, a, g -/
noncomputable def controllers : List (String × (ℝ × ℝ × ℝ × ℝ)) :=
  [("DEADBEAT", (1, 0, 0, 0.9)), ("PI3040", (0.7, -0.4, 0, 0.8)), ("PI4020", (0.6, -0.2, 0, 0.8)),
   ("H211PI", (1 / 6, 1 / 6, 0, 0.8)), ("H110", (1 / 3, 0, 0, 0.8)), ("H211D", (1 / 2, 1 / 2, 1 / 2, 0.8)),
   ("H211B", (1 / 4, 1 / 4, 1 / 4, 0.8))]

/-- the `controller` argument of the constructor -/
inductive ControllerArg where
  | none
  | name (s : String)
  | tuple (kb1 kb2 a g : ℝ)

/-- parameters set by `_init_control` (`integrators/explicit_runge_kutta.py` 285–292) -/
structure Control where
  minbeta1 : ℝ
  minbeta2 : ℝ
  minalpha : ℝ
  safety : ℝ
  safetySc : ℝ

/-- `_init_control` (`integrators/explicit_runge_kutta.py` 246–292); `none` is the `ValueError`.
    No shipped method overrides the class attribute `controller = "deadbeat"`.
    A tuple leaves `controller_str` empty and is replaced by the class default (272–277). -/
noncomputable def initControl (errOrder : Nat) (arg : ControllerArg) : Option Control :=
  let controllerStr : String := match arg with
    | .name s => s.toUpper
    | .none => "deadbeat".toUpper
    | .tuple _ _ _ _ => ""
  let key := if controllerStr = "" then "deadbeat".toUpper else controllerStr
  let errorExponent : ℝ := -1 / ((errOrder : ℝ) + 1)
  (controllers.lookup key).map fun (kb1, kb2, a, g) =>
    { minbeta1 := kb1 * errorExponent, minbeta2 := kb2 * errorExponent, minalpha := -a, safety := g,
      safetySc := g ^ (kb1 + kb2) }

/-! ## The solver -/

/-- the result of `global_inf_norm` on the scaled error: a finite value, or not a number / infinite -/
inductive Err where
  | fin (x : ℝ)
  | bad

inductive Status where
  | running | finished | failed
  deriving DecidableEq

/-- what does not change during the integration (`integrators/explicit_runge_kutta.py` 99–131).
    `maxStep = none` is the default `numpy.inf`; `A B C E` are the coefficients as real numbers. -/
structure Problem (V : Type*) where
  nStages : Nat
  A : Nat → Nat → ℝ
  B : Nat → ℝ
  C : Nat → ℝ
  E : Nat → ℝ
  errOrder : Nat
  f : ℝ → V → V
  /-- norm of the error estimate relative to the scale built from the old and new states (376–380);
      external: it involves the tolerances and a reduction over all processes -/
  errNorm : V → V → V → Err
  tBound : ℝ
  maxStep : Option ℝ
  hMinA : ℝ
  hMinB : ℝ
  control : Control

/-- the mutable attributes (`integrators/explicit_runge_kutta.py` 99–151); the counters are left out -/
structure Solver (V : Type*) where
  t : ℝ
  y : V
  /-- `self.f`: first stage of the next step -/
  k0 : V
  h : ℝ
  /-- `self.error_norm_old`, `None` before the first accepted step -/
  errOld : Option ℝ
  standardSc : Bool
  status : Status

/-- the constructor (`integrators/explicit_runge_kutta.py` 99–151), after the validation of the tableau;
    `none` is a `ValueError` about the first step -/
noncomputable def construct {V : Type*} (p : Problem V) (t0 : ℝ) (y0 : V) (firstStep : ℝ) : Option (Solver V) :=
  if firstStep ≤ 0 then none
  else if firstStep > |p.tBound - t0| then none
  else some { t := t0, y := y0, k0 := p.f t0 y0, h := firstStep, errOld := none, standardSc := true,
              status := .running }

/-- `_init_min_step_parameters` (`integrators/explicit_runge_kutta.py` 437–470): `h_min_a` and `h_min_b`
    from the nodes and the two machine constants -/
noncomputable def minStepParameters (C : List ℝ) (epsneg tiny : ℝ) : ℝ × ℝ :=
  let cdiff : ℝ := C.foldl (fun acc c1 => C.foldl (fun acc c2 =>
    open Classical in if |c1 - c2| ≠ 0 then min acc |c1 - c2| else acc) acc) 1
  let cdiff := if cdiff < 1 / 1000 then 1 / 1000 else cdiff
  (10 * epsneg / cdiff, Real.sqrt tiny)

/-- `self.FSAL` (`integrators/explicit_runge_kutta.py` 147) -/
def fsal {V : Type*} (p : Problem V) : Prop := p.E p.nStages ≠ 0

/-- `_reassess_stepsize` (`integrators/explicit_runge_kutta.py` 472–507):
    the step, the minimum step and the new value of `standard_sc`. -/
noncomputable def reassess {V : Type*} (p : Problem V) (s : Solver V) : ℝ × ℝ × Bool :=
  let h := s.h
  let minStep := max (p.hMinA * (|s.t| + h)) p.hMinB
  let below : Prop := h < minStep
  let above : Prop := match p.maxStep with | none => False | some M => M < h
  let r : ℝ × Bool :=
    open Classical in
    if below ∨ above then
      ((match p.maxStep with | none => max minStep h | some M => min M (max minStep h)), true)
    else (h, s.standardSc)
  let d := |p.tBound - s.t|
  if d < 2 * r.1 then
    if r.1 < d then (max (0.5 * d) minStep, minStep, true)
    else (d, minStep, r.2)
  else (r.1, minStep, r.2)

variable {V : Type*} [AddCommGroup V] [Module ℝ V]

/-- the stages `K[0], …, K[n-1]` (`integrators/explicit_runge_kutta.py` 354–358), oldest first -/
noncomputable def stages (p : Problem V) (t h : ℝ) (y k0 : V) : Nat → List V
  | 0 => [k0]
  | i + 1 =>
    let K := stages p t h y k0 i
    let dy := h • ((K.zipIdx.map fun q => p.A (i + 1) q.2 • q.1).sum)
    K ++ [p.f (t + p.C (i + 1) * h) (y + dy)]

/-- Σ_i w i • K[i] -/
noncomputable def combineK (w : Nat → ℝ) (K : List V) : V := (K.zipIdx.map fun q => w q.2 • q.1).sum

/-- outcome of the loop of `_step_impl` -/
inductive Outcome (V : Type*) where
  /-- `return False` -/
  | fail
  /-- step accepted: step used, next step, new state, value of `K[n_stages]`, error norm, `standard_sc` -/
  | accept (hUsed hNext : ℝ) (yNew kLast : V) (err : ℝ) (standardSc : Bool)
  /-- the model ran out of fuel: the loop goes on -/
  | more
  /-- `None ** float`: `TypeError` -/
  | crash

/-- the factor of an accepted step (`integrators/explicit_runge_kutta.py` 388–404);
    `none` is the `TypeError` of `None ** float` -/
noncomputable def acceptFactor (p : Problem V) (standardSc : Bool) (err : ℝ) (errOld : Option ℝ)
    (h hPrev : ℝ) : Option (ℝ × Bool) :=
  if err < p.hMinB then some (bigFactor, true)
  else if standardSc then some (p.control.safety * err ^ (-1 / ((p.errOrder : ℝ) + 1)), false)
  else match errOld with
    | none => none
    | some old => some (p.control.safetySc *
        (err ^ p.control.minbeta1 * old ^ p.control.minbeta2 * (h / hPrev) ^ p.control.minalpha), standardSc)

/-- the new state (`integrators/explicit_runge_kutta.py` 354–361) -/
noncomputable def advance (p : Problem V) (s : Solver V) (h : ℝ) : V :=
  s.y + h • combineK p.B (stages p s.t h s.y s.k0 (p.nStages - 1))

/-- the error norm (`integrators/explicit_runge_kutta.py` 363–372) -/
noncomputable def errorOf (p : Problem V) (s : Solver V) (h : ℝ) : Err :=
  let K := stages p s.t h s.y s.k0 (p.nStages - 1)
  let yNew := advance p s h
  open Classical in
  let K' := if fsal p then K ++ [p.f (s.t + h) yNew] else K
  p.errNorm s.y yNew (h • combineK p.E K')

/-- the factor after a possible earlier rejection (`integrators/explicit_runge_kutta.py` 406–407) -/
noncomputable def cap (rejected : Bool) (factor : ℝ) : ℝ := if rejected then min 1 factor else factor

/-- the value of `K[n_stages]` after the loop, where `h` is the step used and `h'` the value of the variable
    `h` after it was rescaled (`integrators/explicit_runge_kutta.py` 364–366 and 433–435) -/
noncomputable def lastDerivative (p : Problem V) (s : Solver V) (h h' : ℝ) : V :=
  open Classical in
  if fsal p then p.f (s.t + h) (advance p s h) else p.f (s.t + h') (advance p s h)

/-- the loop of `_step_impl` (`integrators/explicit_runge_kutta.py` 343–422).
    `rejected` is `step_rejected`, `hPrev` is `self.h_previous`.
    With a value that is not finite the loop ends with `return False` whatever the new `h` is (407–419). -/
noncomputable def attempt (p : Problem V) (s : Solver V) (sc : Bool) (hPrev minStep : ℝ) :
    Nat → Bool → ℝ → Outcome V
  | 0, _, _ => .more
  | fuel + 1, rejected, h =>
    if h < minStep then .fail
    else match errorOf p s h with
      | .bad => .fail
      | .fin e =>
        if e < 1 then
          match acceptFactor p sc e s.errOld h hPrev with
          | none => .crash
          | some fs =>
            let h' := h * limiter (cap rejected fs.1) 2
            .accept h h' (advance p s h) (lastDerivative p s h h') e fs.2
        else
          let h' := h * limiter (p.control.safety * e ^ (-1 / ((p.errOrder : ℝ) + 1))) 2
          if h' < 1 / 10 ^ 12 then .fail
          else attempt p s sc hPrev minStep fuel true h'

/-- result of a call of `step` -/
inductive Result (V : Type*) where
  | ok (s : Solver V)
  /-- `RuntimeError`: the solver is not running -/
  | notRunning
  | typeError
  /-- the fuel of the model was not enough -/
  | more

/-- `step` (`integrators/explicit_runge_kutta.py` 294–322) with at most `fuel` attempts.
    The test for an empty state is left out. -/
noncomputable def step (p : Problem V) (fuel : Nat) (s : Solver V) : Result V :=
  if s.status ≠ .running then .notRunning
  else
    open Classical in
    if s.t = p.tBound then .ok { s with t := p.tBound, status := .finished }
    else
      let r := reassess p s
      match attempt p s r.2.2 r.1 r.2.1 fuel false r.1 with
      | .more => .more
      | .crash => .typeError
      | .fail => .ok { s with standardSc := r.2.2, status := .failed }
      | .accept hUsed hNext yNew kLast err sc =>
        let tNew := s.t + hUsed
        .ok { t := tNew, y := yNew, k0 := kLast, h := hNext, errOld := some err, standardSc := sc,
              status := if tNew - p.tBound ≥ 0 then .finished else .running }

end WxVerif.RungeKutta
