/-
The finite-difference operators on the whole square, without processes: what the tiled operators must give.
-/
import Mathlib.Data.Real.Basic

namespace WxVerif.Spec.StiffPdes

/-- boundary conditions: zero outside; zero derivative at the boundary; periodic -/
inductive Bc where
  | dirichlet | neumann | periodic

noncomputable section

/-- Value before point `k` of a line of `M` points.  Before the first point: 0; the boundary value `g` for which the one-sided difference
`-3 g + 4 f 0 - f 1` is zero; the last point. -/
def before (bc : Bc) (M : Nat) (f : Nat → ℝ) (k : Nat) : ℝ :=
  if k = 0 then
    match bc with
    | .dirichlet => 0
    | .neumann => (4 * f 0 - f 1) / 3
    | .periodic => f (M - 1)
  else f (k - 1)

/-- Value after point `k` of a line of `M` points. -/
def after (bc : Bc) (M : Nat) (f : Nat → ℝ) (k : Nat) : ℝ :=
  if k + 1 = M then
    match bc with
    | .dirichlet => 0
    | .neumann => (4 * f (M - 1) - f (M - 2)) / 3
    | .periodic => f 0
  else f (k + 1)

/-- `f (k-1) - 2 f k + f (k+1)` -/
def second (bc : Bc) (M : Nat) (f : Nat → ℝ) (k : Nat) : ℝ := before bc M f k - 2 * f k + after bc M f k

/-- `f (k+1) - f (k-1)` -/
def central (bc : Bc) (M : Nat) (f : Nat → ℝ) (k : Nat) : ℝ := after bc M f k - before bc M f k

/-- five-point Laplacian of the field `u` (row, column) on `M × M` points with spacing `h` -/
def laplacian (bc : Bc) (M : Nat) (h : ℝ) (u : Nat → Nat → ℝ) (a b : Nat) : ℝ :=
  (second bc M (u a) b + second bc M (fun a => u a b) a) / h ^ 2

/-- central difference for `u_x + u_y` -/
def advection (bc : Bc) (M : Nat) (h : ℝ) (u : Nat → Nat → ℝ) (a b : Nat) : ℝ :=
  (central bc M (u a) b + central bc M (fun a => u a b) a) / (2 * h)

/-- Allen–Cahn: `ε Δu + u - u³` -/
def allenCahn (M : Nat) (h ε : ℝ) (u : Nat → Nat → ℝ) (a b : Nat) : ℝ := ε * laplacian .neumann M h u a b + u a b - u a b ^ 3

/-- advection, diffusion and reaction: `ε Δu - α (u_x + u_y) + γ u (u - 1/2) (1 - u)` -/
def adr (M : Nat) (h ε α γ : ℝ) (u : Nat → Nat → ℝ) (a b : Nat) : ℝ :=
  ε * laplacian .neumann M h u a b - α * advection .neumann M h u a b + γ * u a b * (u a b - 1 / 2) * (1 - u a b)

/-- porous medium: `Δ(u²) + α (u_x + u_y)` -/
def porous (M : Nat) (h α : ℝ) (u : Nat → Nat → ℝ) (a b : Nat) : ℝ :=
  laplacian .periodic M h (fun a b => u a b ^ 2) a b + α * advection .periodic M h u a b

/-- Burgers: `ε Δu - α/2 ((u²)_x + (u²)_y)` -/
def burgers (M : Nat) (h ε α : ℝ) (u : Nat → Nat → ℝ) (a b : Nat) : ℝ :=
  ε * laplacian .dirichlet M h u a b - α * (advection .dirichlet M h (fun a b => u a b ^ 2) a b / 2)

/-- Part of a field on `M × M` points that the process in row `Y` and column `X` holds, `n` rows of `n` points stored one after the other. -/
def tile (n : Nat) (u : Nat → Nat → ℝ) (Y X : Nat) : List ℝ :=
  (List.range n).flatMap fun j => (List.range n).map fun i => u (Y * n + j) (X * n + i)

end

end WxVerif.Spec.StiffPdes
