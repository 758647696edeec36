import Mathlib.Analysis.InnerProductSpace.Basic
import Mathlib.Analysis.Normed.Algebra.MatrixExponential

/-!
# Model of the Krylov exponential solvers: the augmented system, the Krylov process and the update

Sources: `wx_factory/solvers/kiops.py` and `wx_factory/solvers/pmex.py`.  Exact real arithmetic; the global sums of the
MPI code are the inner product of the whole vector (see `Props/Reductions.lean`); the matrix exponential is `exp`.
-/

namespace WxVerif.Krylov

/-! ## The augmented system -/

section aug
variable {K V : Type*} [Field K] [AddCommGroup V] [Module K V]

/-- number of `φ` functions, after the extra row of the case of a single row (`kiops.py` 77–83, `pmex.py` 50–56): `none` is
    the `ValueError` of `row_stack`, because the extra row has `len(u)` entries, that is one -/
def stack (u : List (List K)) (n : Nat) : Option (List (List K)) :=
  if u.length - 1 = 0 then
    if u.length = n then some (u ++ [List.replicate u.length 0]) else none
  else some u

/-- `nu` and `mu` (`kiops.py` 118–125, `pmex.py` 98–105), for the exponent `ex` of the largest row -/
def scale (ex : ℤ) : K × K := (2 ^ (-ex), 2 ^ ex)

/-- `u_flip = nu * flipud(u[1:])` (`kiops.py` 128, `pmex.py` 108): row `k` is `nu u[p - k]` -/
def uFlip (nu : K) (p : Nat) (u : Nat → V) (k : Fin p) : V := nu • u (p - k)

/-- the augmented product (`kiops.py` 181–183, `pmex.py` 164–166) -/
def augMul {p : Nat} (A : V → V) (uf : Fin p → V) (v : V × (Fin p → K)) : V × (Fin p → K) :=
  (A v.1 + ∑ k, v.2 k • uf k, fun k => if h : (k : Nat) + 1 < p then v.2 ⟨k + 1, h⟩ else 0)

/-- the augmented vector at the start of a sub-step, before the normalization (`kiops.py` 157–163, `pmex.py` 140–146) -/
def startVec (p : Nat) (w : V) (mu tauNow : K) : V × (Fin p → K) :=
  (w, fun k => if (k : Nat) + 1 < p then tauNow ^ (p - k + 1) / ((p - k + 1).factorial : K) * mu else mu)

end aug

/-! ## The Krylov process -/

section arnoldi
variable {W : Type*} [NormedAddCommGroup W] [InnerProductSpace ℝ W]

/-- the arrays that live through the whole call: basis, Hessenberg matrix, and the three matrices of `pmex`; `j` is the size
    of the space, `happy` the breakdown -/
structure Mem (W : Type*) where
  V : Nat → W
  H : Nat → Nat → ℝ
  M : Nat → Nat → ℝ
  N : Nat → Nat → ℝ
  Minv : Nat → Nat → ℝ
  j : Nat
  happy : Bool

/-- `zeros` and `eye` (`kiops.py` 88–90, `pmex.py` 78–83) -/
def fresh : Mem W where
  V := fun _ => 0
  H := fun _ _ => 0
  M := fun a b => if a = b then 1 else 0
  N := fun _ _ => 0
  Minv := fun a b => if a = b then 1 else 0
  j := 0
  happy := false

/-- assignment of a row of the basis -/
def setV (V : Nat → W) (i : Nat) (v : W) : Nat → W := fun k => if k = i then v else V k

/-- one pass of the Krylov loop of `kiops` (176–211); `T` is the augmented product -/
noncomputable def kiopsStep (T : W → W) (iop : Nat) (tol : ℝ) (s : Mem W) : Mem W :=
  let j := s.j + 1
  let v := T (s.V s.j)
  let ilow := j - iop
  let H := fun a b => if b = s.j ∧ ilow ≤ a ∧ a < j then inner ℝ (s.V a) v else s.H a b
  let v := v - ∑ i ∈ Finset.Ico ilow j, H i s.j • s.V i
  if ‖v‖ < tol then { s with V := setV s.V j v, H := H, j := j, happy := true }
  else { s with V := setV s.V j (‖v‖⁻¹ • v), H := fun a b => if a = j ∧ b = s.j then ‖v‖ else H a b, j := j }

/-- the vector `sol` of `pmex` (168–192).  `solve_triangular` is called with its default `lower=False`: it uses the part of
    `M` above the diagonal, which the code never writes, so that the solve returns its right-hand side. -/
noncomputable def pmexSol (N Minv : Nat → Nat → ℝ) (j : Nat) (g : Nat → ℝ) (i : Nat) : ℝ :=
  g i + ∑ k ∈ Finset.range j, ∑ l ∈ Finset.range j, N i k * Minv k l * g l

/-- the matrices of the Gauss-Seidel projection (`pmex.py` 181–184) -/
noncomputable def pmexMats (s : Mem W) (j : Nat) : (Nat → Nat → ℝ) × (Nat → Nat → ℝ) × (Nat → Nat → ℝ) :=
  if 1 < j then
    let r := fun i => inner ℝ (s.V i) (s.V (j - 1))
    (fun a b => if a = j - 1 ∧ b < j - 1 then r b else s.M a b,
     fun a b => if b = j - 1 ∧ a < j - 1 then -r a else s.N a b,
     fun a b => if a = j - 1 ∧ b < j - 1 then -∑ k ∈ Finset.range (j - 1), r k * s.Minv k b else s.Minv a b)
  else (s.M, s.N, s.Minv)

/-- one pass of the Krylov loop of `pmex` (159–232) -/
noncomputable def pmexStep (T : W → W) (tol : ℝ) (s : Mem W) : Mem W :=
  let j := s.j + 1
  let v := T (s.V s.j)
  let g := fun i => inner ℝ (s.V i) v
  let m := pmexMats s j
  let sol := pmexSol m.2.1 m.2.2 j g
  let v' := v - ∑ i ∈ Finset.range j, sol i • s.V i
  let sumSq := ∑ i ∈ Finset.range j, g i ^ 2
  let nrm := if inner ℝ v v < sumSq then ‖v'‖ else Real.sqrt (inner ℝ v v - sumSq)
  let s' := { s with M := m.1, N := m.2.1, Minv := m.2.2, j := j }
  if nrm < tol then { s' with V := setV s.V j v', happy := true }
  else { s' with V := setV s.V j (nrm⁻¹ • v'), H := fun a b => if b = s.j ∧ a < j then sol a else if a = j ∧ b = s.j then nrm else s.H a b }

/-- `while j < m` with the `break` at the breakdown -/
def krylovLoop (step : Mem W → Mem W) (m : Nat) : Nat → Mem W → Mem W
  | 0, s => s
  | fuel + 1, s => if s.j < m ∧ s.happy = false then krylovLoop step m fuel (step s) else s

/-- the start of a sub-step: the normalized vector in row 0 (`kiops.py` 165–173; `pmex.py` 148–156), and in `pmex` (138)
    the Hessenberg matrix set to zero -/
noncomputable def begin (clear : Bool) (v : W) (s : Mem W) : Mem W :=
  { s with V := setV s.V 0 (‖v‖⁻¹ • v), H := if clear then fun _ _ => 0 else s.H, j := 0, happy := false }

/-- a sub-step of `kiops` up to the exponential: at most `m` vectors -/
noncomputable def kiopsRun (T : W → W) (iop : Nat) (tol : ℝ) (m : Nat) (v : W) (s : Mem W) : Mem W :=
  krylovLoop (kiopsStep T iop tol) m m (begin false v s)

/-- a sub-step of `pmex` up to the exponential -/
noncomputable def pmexRun (T : W → W) (tol : ℝ) (m : Nat) (v : W) (s : Mem W) : Mem W :=
  krylovLoop (pmexStep T tol) m m (begin true v s)

/-- the matrix whose exponential is taken: `H[:j+1, :j+1]` with `H[0, j] = 1` and `H[j, j-1] = 0` (`kiops.py` 213–221,
    `pmex.py` 234–242) -/
def expArg (s : Mem W) : Matrix (Fin (s.j + 1)) (Fin (s.j + 1)) ℝ :=
  fun a b => if (b : Nat) = s.j ∧ (a : Nat) = 0 then 1
    else if (a : Nat) = s.j ∧ (b : Nat) + 1 = s.j then 0 else s.H a b

/-- the memory after an accepted sub-step: `H[0, j] = 1` stays (`kiops.py` 214, 225, 291–325) -/
def accepted (s : Mem W) : Mem W :=
  { s with H := fun a b => if b = s.j ∧ a = 0 then 1 else s.H a b, j := 0, happy := false }

/-- `beta * F[:j, 0] @ V[:j]` with the exponential taken at once (`kiops.py` 221, 317) -/
noncomputable def kiopsUpdate (tau : ℝ) (v : W) (s : Mem W) : W :=
  let F := NormedSpace.exp (tau • expArg s)
  ‖v‖ • ∑ k : Fin s.j, F k.castSucc 0 • s.V k

/-- the same with the square of the exponential of half the matrix (`pmex.py` 242–243, 343) -/
noncomputable def pmexUpdate (tau : ℝ) (v : W) (s : Mem W) : W :=
  let Fh := NormedSpace.exp ((tau * (1 / 2)) • expArg s)
  let F := Fh * Fh
  ‖v‖ • ∑ k : Fin s.j, F k.castSucc 0 • s.V k

end arnoldi

end WxVerif.Krylov
