import Verif.Model.Krylov
import Mathlib.Analysis.InnerProductSpace.ProdL2
import Mathlib.Analysis.SpecialFunctions.Log.Base
import Mathlib.LinearAlgebra.Matrix.Charpoly.Basic
import Mathlib.Algebra.Polynomial.Roots
import Mathlib.Analysis.Complex.Basic

/-!
# Model of the smoothers and of the multigrid cycle

Sources: `wx_factory/precondition/smoother.py` and `wx_factory/precondition/multigrid.py`.  Exact real arithmetic; `none` as an outcome
is an exception or a result that is not finite.  Printing and the verbose residuals are left out.
-/

namespace WxVerif.Multigrid

open WxVerif.Krylov

/-- a smoother: matrix operator, right-hand side and guess (which may be missing) to a new guess
    (`smoother.py` 16–22; the default `lambda A, b, x: x` of `multigrid.py` 154 can return a missing guess) -/
abbrev Smoother (E : Type*) := (E → E) → E → Option E → Option (Option E)

section pointwise
variable {ι : Type*}

/-- `RK1Smoother` (`smoother.py` 246–264); `h` is an array of pseudo time steps.  The code updates the given guess in place; the model
    returns the new value. -/
def rk1 (h : ι → ℝ) : Smoother (ι → ℝ) := fun A b x =>
  match x with
  | none => some (some (h * b))
  | some x => some (some (x + h * (b - A x)))

/-- `RK3Smoother` (`smoother.py` 267–287) -/
noncomputable def rk3 (h : ι → ℝ) : Smoother (ι → ℝ) := fun A b x =>
  let alpha1 : ℝ := 0.145
  let alpha2 : ℝ := 0.395
  match x with
  | none =>
    let s1 := alpha1 • (h * b)
    let s2 := alpha2 • (h * (b - A s1))
    some (some (h * (b - A s2)))
  | some x =>
    let s1 := x + alpha1 • (h * (b - A x))
    let s2 := x + alpha2 • (h * (b - A s1))
    some (some (x + h * (b - A s2)))

/-- `ARKSmoother.A_conv` (`smoother.py` 306–308), for the Jacobian-vector product `Jc` of the convective part (`matvec_fun`, which is
    already multiplied by the time step) -/
noncomputable def aConv (Jc : (ι → ℝ) → ι → ℝ) (dt : ℝ) (x : ι → ℝ) : ι → ℝ := (-dt / 2) • Jc x

/-- `ARKSmoother.A_visc` (`smoother.py` 310–315) -/
noncomputable def aVisc (Jf Jc : (ι → ℝ) → ι → ℝ) (dt : ℝ) (x : ι → ℝ) : ι → ℝ := x - (dt / 2) • (Jf x - Jc x)

/-- `ARK3Smoother` (`smoother.py` 318–357) for the two parts of the operator; the operator that is passed is not used -/
noncomputable def ark3 (h : ι → ℝ) (Ac Av : (ι → ℝ) → ι → ℝ) : Smoother (ι → ℝ) := fun _ b x =>
  let alpha1 : ℝ := 0.145
  let alpha2 : ℝ := 0.395
  let alpha3 : ℝ := 1
  let beta2 : ℝ := 1 / 2
  let beta3 : ℝ := 1 / 2
  let fc := fun u => b - Ac u
  let fv := fun u => -Av u
  match x with
  | none =>
    let fc0 := b
    let u1 := alpha1 • (h * fc0)
    let fc1 := fc u1
    let fv1 := beta2 • fv u1
    let u2 := alpha2 • (h * (fc1 + fv1))
    let fc2 := fc u2
    let fv2 := beta3 • fv u2 + (1 - beta3) • fv1
    some (some (alpha3 • (h * (fc2 + fv2))))
  | some x =>
    let fc0 := fc x
    let fv0 := fv x
    let u1 := x + alpha1 • (h * (fc0 + fv0))
    let fc1 := fc u1
    let fv1 := beta2 • fv u1 + (1 - beta2) • fv0
    let u2 := x + alpha2 • (h * (fc1 + fv1))
    let fc2 := fc u2
    let fv2 := beta3 • fv u2 + (1 - beta3) • fv1
    some (some (x + alpha3 • (h * (fc2 + fv2))))

end pointwise

section exponential
variable {W : Type*} [NormedAddCommGroup W] [InnerProductSpace ℝ W]

/-- `KiopsSmoother` (`smoother.py` 212–243); `kiops J r` is the first output of `kiops([1], J, [0, r], …)`, `none` if it raises -/
noncomputable def kiopsSmoother (kiops : (W → W) → W → Option W) (realDt dtFactor : ℝ) : Smoother W := fun A b x =>
  let pseudoDt := dtFactor * realDt
  let J := fun v => (pseudoDt / realDt) • (-A v)
  let R := match x with
    | none => realDt⁻¹ • b
    | some xx => realDt⁻¹ • (b - A xx)
  (kiops J R).map fun phiv =>
    match x with
    | none => some (pseudoDt • phiv)
    | some x => some (pseudoDt • phiv + x)

/-- the augmented product of `ExponentialSmoother` (`smoother.py` 107–110, `p = 1`) -/
noncomputable def expMul (A : W → W) (globalDt : ℝ) (uf : W) (v : WithLp 2 (W × ℝ)) : WithLp 2 (W × ℝ) :=
  WithLp.toLp 2 (globalDt⁻¹ • (-A v.fst) + v.snd • uf, 0)

variable {X : Type*} [NormedAddCommGroup X] [InnerProductSpace ℝ X]

/-- the matrices of the Gauss-Seidel projection (`smoother.py` 125–128) -/
noncomputable def expMats (s : Mem X) (j : Nat) : (Nat → Nat → ℝ) × (Nat → Nat → ℝ) × (Nat → Nat → ℝ) :=
  if 1 < j then
    let r := fun i => inner ℝ (s.V i) (s.V (j - 1))
    (fun a b => if a = j - 1 ∧ b < j - 1 then r b else s.M a b,
     fun a b => if b = j - 1 ∧ a < j - 1 then -r a else s.N a b,
     fun a b => if a = j - 1 ∧ b < j - 1 then -∑ k ∈ Finset.range (j - 1), s.Minv b k * r k else s.Minv a b)
  else (s.M, s.N, s.Minv)

/-- one pass of the orthogonalization of `ExponentialSmoother` (`smoother.py` 103–161).  As in `pmex`, `solve_triangular` is called
    with its default `lower=False` and returns its right-hand side (`pmexSol`). -/
noncomputable def expStep (T : X → X) (tol : ℝ) (s : Mem X) : Mem X :=
  let j := s.j + 1
  let v := T (s.V s.j)
  let g := fun i => inner ℝ (s.V i) v
  let H := fun a b => if b = s.j ∧ a < j then g a else s.H a b
  let m := expMats s j
  let sol := pmexSol m.2.1 m.2.2 j g
  let v' := v - ∑ i ∈ Finset.range j, sol i • s.V i
  let sumSq := ∑ i ∈ Finset.range j, g i ^ 2
  let nrm := if inner ℝ v v < sumSq then ‖v'‖ else Real.sqrt (inner ℝ v v - sumSq)
  let s' := { s with M := m.1, N := m.2.1, Minv := m.2.2, j := j, H := H }
  if nrm < tol then { s' with V := setV s.V j v', happy := true }
  else { s' with V := setV s.V j (nrm⁻¹ • v'), H := fun a b => if a = j ∧ b = s.j then nrm else H a b }

/-- `max(abs(D_eig))` for the eigenvalues of `H[0:j+1, 0:j+1]` (`smoother.py` 164–166): the roots of the characteristic polynomial
    over the complex numbers -/
noncomputable def maxEig {n : Nat} (H : Matrix (Fin n) (Fin n) ℝ) : ℝ :=
  (((H.map (algebraMap ℝ ℂ)).charpoly.roots.map fun z => ‖z‖₊).sup : NNReal)

/-- the normalization factors `nu` and `mu` (`smoother.py` 70–76) for the 1-norm of the scaled residual -/
noncomputable def expScale (normU : ℝ) : ℝ × ℝ :=
  if normU > 0 then
    let ex := ⌈Real.logb 2 normU⌉
    (2 ^ (-ex), 2 ^ ex)
  else (1, 1)

/-- the residual of a guess that may be missing (`smoother.py` 39, `multigrid.py` 478–480) -/
def residualOf {E : Type*} [AddCommGroup E] (A : E → E) (b : E) (x : Option E) : E :=
  match x with
  | some x => b - A x
  | none => b

/-- the start vector and the Krylov loop of `ExponentialSmoother` (`smoother.py` 58–161) -/
noncomputable def expRun (norm1 : W → ℝ) (niter : Nat) (globalDt : ℝ) (A : W → W) (r : W) :
    WithLp 2 (W × ℝ) × Mem (WithLp 2 (W × ℝ)) :=
  let u := globalDt⁻¹ • r
  let sc := expScale (norm1 u)
  let v : WithLp 2 (W × ℝ) := WithLp.toLp 2 (0, sc.2)
  (v, krylovLoop (expStep (expMul A globalDt (sc.1 • u)) 1e-10) niter niter (begin true v fresh))

/-- `phiv * dt` (`smoother.py` 163–188): the step size from the spectral radius, and the exponential.  A zero spectral radius makes
    `dt` infinite, the argument of the exponential contains `inf * 0` and the result is not finite: `none`. -/
noncomputable def expIncrement (norm1 : W → ℝ) (niter : Nat) (target globalDt : ℝ) (A : W → W) (r : W) : Option W :=
  let run := expRun norm1 niter globalDt A r
  let s := run.2
  let rho := maxEig (n := s.j + 1) (fun a b => s.H a b)
  if rho = 0 then none
  else
    let dt := target / rho
    some (dt • (kiopsUpdate dt run.1 s).fst)

/-- `ExponentialSmoother` (`smoother.py` 35–209); `norm1` is the global 1-norm -/
noncomputable def expSmoother (norm1 : W → ℝ) (niter : Nat) (target globalDt : ℝ) : Smoother W := fun A b x0 =>
  let r := residualOf A b x0
  (expIncrement norm1 niter target globalDt A r).map fun d =>
    let new := match x0 with
      | some x => d + x
      | none => d
    if ‖b - A new‖ > ‖r‖ then some (x0.getD 0) else some new

end exponential

/-! ## The cycle -/

/-- what a level holds (`multigrid.py` 43–51) -/
structure Level (E F : Type*) where
  A : E → E
  pre : Smoother E
  post : Smoother E
  restrict : E → F
  prolong : F → E
  nPre : Nat
  nPost : Nat

/-- `for i in range(n): x = smoothe(A, b, x)` (`multigrid.py` 531–532, 585–586) -/
def smoothe {E : Type*} (S : Smoother E) (A : E → E) (b : E) : Nat → Option E → Option (Option E)
  | 0, x => some x
  | n + 1, x => (S A b x).bind (smoothe S A b n)

/-- `for _ in range(gamma): correction = self.iterate(residual, correction, …)` (`multigrid.py` 548–554) -/
def passes {E : Type*} (f : Option E → Option (Option E)) : Nat → Option E → Option (Option E)
  | 0, c => some c
  | n + 1, c => (f c).bind (passes f n)

/-- the smoothing around the middle part of `iterate` (`multigrid.py` 529–542 and 584–586); a guess still missing after the first
    smoothing becomes zero (541–542) -/
def around {E F : Type*} [AddCommGroup E] (lv : Level E F) (middle : E → E → Option E) (b : E) (x0 : Option E) : Option (Option E) :=
  (smoothe lv.pre lv.A b lv.nPre x0).bind fun x =>
  (middle b (x.getD 0)).bind fun x =>
  smoothe lv.post lv.A b lv.nPost (some x)

/-- the correction from the next level (`multigrid.py` 544–561); `next` is `iterate` there.  A missing correction (`gamma = 0`) makes
    `prolong` raise. -/
def correct {E F : Type*} [AddCommGroup E] (lv : Level E F) (next : F → Option F → Option (Option F)) (gamma : Nat) (b x : E) : Option E :=
  let residual := lv.restrict (b - lv.A x)
  (passes (next residual) gamma none).bind fun correction =>
  correction.map fun c => x + lv.prolong c

/-- the coarsest level (`multigrid.py` 567–577): `solve` is the call of `fgmres` if `use_solver` is set -/
def coarsest {E : Type*} (solve : Option (E → E → Option E)) (b x : E) : Option E :=
  match solve with
  | some solve => solve b x
  | none => some x

/-- `Multigrid.iterate` (`multigrid.py` 488–600) with `depth` further levels (`num_levels - 1 - level`) -/
def iterate {E : Nat → Type*} [∀ l, AddCommGroup (E l)] (L : ∀ l, Level (E l) (E (l + 1)))
    (solver : ∀ l, Option (E l → E l → Option (E l))) (gamma : Nat) :
    (depth : Nat) → (l : Nat) → E l → Option (E l) → Option (Option (E l))
  | depth + 1, l => around (L l) (correct (L l) (iterate L solver gamma depth (l + 1)) gamma)
  | 0, l => around (L l) (coarsest (solver l))

/-- `Multigrid.apply` (`multigrid.py` 467–475): the number of levels is the configured one -/
def apply {D : Type*} {E : Nat → Type*} [∀ l, AddCommGroup (E l)] (L : ∀ l, Level (E l) (E (l + 1)))
    (solver : ∀ l, Option (E l → E l → Option (E l))) (numLevels : Nat) (toLevel : D → E 0) (back : E 0 → D) (vec : D)
    (x0 : Option (E 0)) : Option D :=
  (iterate L solver 1 (numLevels - 1) 0 (toLevel vec) x0).bind fun r => r.map back

/-- `extended_list` (`multigrid.py` 365–374); `none` is the `IndexError` of `old_list[-1]` or of `pop` on an empty list -/
def extendedList {α : Type*} (old : List α) (target : Nat) : Option (List α) :=
  if old.length < target then old.getLast?.map fun a => old ++ List.replicate (target - old.length) a
  else some (old.take target)

end WxVerif.Multigrid
