import Mathlib.Analysis.InnerProductSpace.Basic

/-!
# Model of the FGMRES solver

Source: `wx_factory/solvers/fgmres.py`.  Exact real arithmetic: the global sums are the inner product of the whole vector.
The triangular solve (`solve_triangular`) is a parameter.  A division by zero gives `nan` in the code and 0 here; the two
places where it can happen are named below.
-/

namespace WxVerif.Gmres

/-- `rotg` (`fgmres.py` 75–94): the cosine, the sine and the length -/
noncomputable def rotg (a b : ℝ) : ℝ × ℝ × ℝ :=
  if |b| = 0 then (1, 0, a)
  else if |a| = 0 then (0, 1, b)
  else
    let scl := min |a| |b|
    let sigma : ℝ := if |a| > |b| then (if 0 ≤ a then 1 else -1) else (if 0 ≤ b then 1 else -1)
    let r := sigma * (scl * Real.sqrt ((a / scl) ^ 2 + (b / scl) ^ 2))
    (a / r, b / r, r)

/-- the unit lower triangular solve of `_ortho_1_sync_igs` (57): `(L + I) x = rhs` -/
noncomputable def forward (L : Nat → Nat → ℝ) (rhs : Nat → ℝ) (i : Nat) : ℝ :=
  rhs i - ∑ k : Fin i, L i k * forward L rhs k
termination_by i
decreasing_by exact k.2

section
variable {W : Type*} [NormedAddCommGroup W] [InnerProductSpace ℝ W]

/-- the arrays of a cycle -/
structure Arr (W : Type*) where
  V : Nat → W
  Z : Nat → W
  R : Nat → Nat → ℝ
  K : Nat → Nat → ℝ
  T : Nat → Nat → ℝ

/-- assignment of one entry -/
def upd {α : Type*} (f : Nat → α) (i : Nat) (x : α) : Nat → α := fun k => if k = i then x else f k

/-- `_ortho_1_sync_igs` for `j = k + 2` (`fgmres.py` 32–72): rows `k` and `k + 1` are the last two.  If row `k` is zero after
    the projection, `norm` is 0 and the code goes on with `nan` in rows `k` and `k + 1`. -/
noncomputable def ortho (k : Nat) (s : Arr W) : Arr W × ℝ :=
  let q := s.V k
  let p := s.V (k + 1)
  let small := fun i => inner ℝ (s.V i) q
  let col := fun i => inner ℝ (s.V i) p
  let norm := Real.sqrt (inner ℝ q q - ∑ i ∈ Finset.range k, small i ^ 2)
  let last := (col k - ∑ i ∈ Finset.range k, small i * col i) / norm
  let T := fun a b => if b = k ∧ a < k then small a / norm else s.T a b
  let R := fun a b => if b = k + 1 ∧ a < k then col a else if a = k ∧ b = k + 1 then last
    else if a = k ∧ b = k then norm else s.R a b
  if 0 < k then
    let r3 := forward (fun a b => if b < a then T b a else 0) small
    let R := fun a b => if b = k ∧ a < k then s.K a (k - 1) + r3 a else R a b
    let K := fun a b => if b = k ∧ a < k + 1 then (R a (k + 1) - ∑ c ∈ Finset.range k, R a (c + 1) * r3 c) / norm else s.K a b
    let q := norm⁻¹ • (q - ∑ i ∈ Finset.range k, small i • s.V i)
    let p := p - ∑ i ∈ Finset.range k, R i (k + 1) • s.V i
    ({ s with V := upd (upd s.V k q) (k + 1) (norm⁻¹ • (p - last • q)), R := R, K := K, T := T }, norm)
  else
    let K := fun a b => if b = k ∧ a < k + 1 then R a (k + 1) / norm else s.K a b
    let q := norm⁻¹ • q
    ({ s with V := upd (upd s.V k q) (k + 1) (norm⁻¹ • (p - last • q)), R := R, K := K, T := T }, norm)

/-- the start of a cycle (`fgmres.py` 180–191); the arrays are zero.  For a zero residual the first row is `nan`: see
    `outer`. -/
noncomputable def startCycle (A : W → W) (M : W → W) (r : W) : Arr W × ℝ :=
  let v := ‖r‖⁻¹ • r
  ortho 0 { V := upd (upd (fun _ => 0) 0 v) 1 (A (M v)), Z := upd (fun _ => 0) 0 (M v),
            R := fun _ _ => 0, K := fun _ _ => 0, T := fun _ _ => 0 }

/-- the Krylov part of an inner iteration (`fgmres.py` 200–206): new arrays, new `v_norm` and the row of `H` -/
noncomputable def extend (A : W → W) (M : W → W) (inn : Nat) (s : Arr W × ℝ) : (Arr W × ℝ) × (Nat → ℝ) :=
  let z := M (s.1.V (inn + 1))
  let a := { s.1 with Z := upd s.1.Z (inn + 1) z, V := upd s.1.V (inn + 2) (s.2 • A (s.2⁻¹ • z)) }
  let o := ortho (inn + 1) a
  (({ o.1 with Z := upd o.1.Z (inn + 1) (o.2⁻¹ • o.1.Z (inn + 1)) }, o.2),
   fun i => if i < inn + 2 then o.1.R i (inn + 1) else 0)

/-- one rotation of entries `j` and `j + 1` (`fgmres.py` 221–229, 302–303) -/
def rot (j : Nat) (cs : ℝ × ℝ) (f : Nat → ℝ) : Nat → ℝ := fun l =>
  if l = j then cs.1 * f j + cs.2 * f (j + 1) else if l = j + 1 then -cs.2 * f j + cs.1 * f (j + 1) else f l

/-- `_apply_givens`: the rotations in order, number `j` on entries `j` and `j + 1` (`fgmres.py` 279–303) -/
def rotAll (Q : List (ℝ × ℝ)) (f : Nat → ℝ) : Nat → ℝ :=
  Q.zipIdx.foldl (fun f q => rot q.2 q.1 f) f

/-- the small least-squares problem: rotations, triangular columns and right-hand side -/
structure Small where
  Q : List (ℝ × ℝ)
  cols : List (Nat → ℝ)
  g : Nat → ℝ

/-- the Givens part of an inner iteration (`fgmres.py` 208–230).  The test `inner != num_dofs - 1` is always true because
    `restart < num_dofs`. -/
noncomputable def givens (inn : Nat) (h : Nat → ℝ) (t : Small) : Small :=
  let h := rotAll t.Q h
  if h (inn + 1) ≠ 0 then
    let o := rotg (h inn) (h (inn + 1))
    let cs := (o.1, o.2.1)
    { Q := t.Q ++ [cs], cols := t.cols ++ [upd (upd h inn (cs.1 * h inn + cs.2 * h (inn + 1))) (inn + 1) 0], g := rot inn cs t.g }
  else { t with cols := t.cols ++ [h] }

/-- the inner loop (`fgmres.py` 196–241): the number of remaining passes, the current index, the arrays, the small problem;
    it returns the index of the last pass.  `restart` is at least one. -/
noncomputable def innerLoop (A : W → W) (M : W → W) (tolRel : ℝ) (restart : Nat) : Nat → Nat → Arr W × ℝ → Small → Nat × Arr W × Small
  | 0, inn, s, t => (inn - 1, s.1, t)
  | left + 1, inn, s, t =>
    let e := extend A M inn s
    let t := givens inn e.2 t
    if inn < restart - 1 ∧ |t.g (inn + 1)| < tolRel then (inn, e.1.1, t)
    else innerLoop A M tolRel restart left (inn + 1) e.1 t

/-- a cycle: the index of the last inner iteration, the vectors `Z` and the small problem (`fgmres.py` 180–246) -/
noncomputable def cycle (A : W → W) (M : W → W) (tolRel : ℝ) (restart : Nat) (r : W) : Nat × Arr W × Small :=
  innerLoop A M tolRel restart restart 0 (startCycle A M r) { Q := [], cols := [], g := fun l => if l = 0 then ‖r‖ else 0 }

/-- `y` solves the triangular system of the cycle: `H[:inner+1, :inner+1].T y = g[:inner+1]` (`fgmres.py` 246) -/
def Solves (last : Nat) (t : Small) (y : Nat → ℝ) : Prop :=
  ∀ l ≤ last, ∑ k ∈ Finset.range (last + 1), (t.cols.getD k fun _ => 0) l * y k = t.g l

/-- the update of a cycle (`fgmres.py` 247) -/
noncomputable def update (c : Nat × Arr W × Small) (y : Nat → ℝ) : W := ∑ k ∈ Finset.range (c.1 + 1), y k • c.2.1.Z k

/-! ## The outer loop -/

/-- what `fgmres` returns: the solution, the norm of the residual, the number of inner iterations and the flag -/
structure Answer (W : Type*) where
  x : W
  normR : ℝ
  niter : Nat
  flag : ℤ

/-- the outer loop (`fgmres.py` 178–276): `cyc` runs a cycle for a residual that is not zero and returns the update and the
    number of inner iterations, `none` if it raises; for a zero residual the arrays are `nan` and `solve_triangular` raises
    `ValueError` (its `check_finite` is on).  `stag` is the test for stagnation. -/
noncomputable def outer (A : W → W) (b : W) (tolRel : ℝ) (cyc : W → W → Option (W × Nat)) (stag : W → W → Bool) :
    Nat → Nat → W → Option (Answer W)
  | 0, niter, x => some ⟨x, ‖b - A x‖, niter, if ‖b - A x‖ ≥ tolRel then -1 else 0⟩
  | n + 1, niter, x =>
    if ‖b - A x‖ = 0 then none
    else (cyc x (b - A x)).bind fun u =>
      let x' := x + u.1
      if stag u.1 x' then some ⟨x', ‖b - A x'‖, niter + u.2, -1⟩
      else if ‖b - A x'‖ < tolRel then some ⟨x', ‖b - A x'‖, niter + u.2, 0⟩
      else outer A b tolRel cyc stag n (niter + u.2) x'

/-- the Hegedüs scaling of the initial guess (`fgmres.py` 166–171) -/
noncomputable def rescale (A : W → W) (b x0 : W) : W :=
  if inner ℝ (A x0) (A x0) ≠ (0 : ℝ) then ((inner ℝ b (A x0) : ℝ) / inner ℝ (A x0) (A x0)) • x0 else x0

/-- `fgmres` (`fgmres.py` 133–276); `none` is an exception -/
noncomputable def fgmres (A : W → W) (b : W) (x0 : W) (tol : ℝ) (restart len : Nat) (maxiter : Nat) (hegedus : Bool)
    (cyc : W → W → Option (W × Nat)) (stag : W → W → Bool) : Option (Answer W) :=
  if len ≤ restart then none
  else if ‖b‖ = 0 then some ⟨0, 0, 0, 0⟩
  else outer A b (tol * ‖b‖) cyc stag maxiter 0 (if hegedus then rescale A b x0 else x0)

/-! ## All the processes of a call -/

/-- the whole cycle (`fgmres.py` 180–247): `tri` is `solve_triangular` on the small problem, which is the same on every process -/
noncomputable def runCycle (A : W → W) (M : W → W) (tolRel : ℝ) (restart : Nat) (tri : Nat → Small → Option (Nat → ℝ)) (_x r : W) : Option (W × Nat) :=
  let c := cycle A M tolRel restart r
  (tri c.1 c.2.2).map fun y => (update c y, c.1 + 1)

/-- how a call on all the processes ends: every process has its answer, they raise, or some have left the loop while the others wait for
    them in a product with the operator, which exchanges data between all processes -/
inductive Together (P W : Type*) where
  | answers (a : P → Answer W)
  | raised
  | stuck

open Classical in
/-- The outer loop on all processes (`fgmres.py` 178–276): the vectors are the whole ones, the norms are global sums; the test for stagnation of
    process `q` (258–264) reads its own part.  Processes that leave after the last pass do not wait for anyone. -/
noncomputable def outerAll {P : Type*} (A : W → W) (b : W) (tolRel : ℝ) (cyc : W → W → Option (W × Nat)) (stag : P → W → W → Prop) :
    Nat → Nat → W → Together P W
  | 0, niter, x => .answers fun _ => ⟨x, ‖b - A x‖, niter, if ‖b - A x‖ ≥ tolRel then -1 else 0⟩
  | n + 1, niter, x =>
    if ‖b - A x‖ = 0 then .raised
    else match cyc x (b - A x) with
      | none => .raised
      | some u =>
        let x' := x + u.1
        if ‖b - A x'‖ < tolRel ∨ ∀ q, stag q u.1 x' then
          .answers fun q => ⟨x', ‖b - A x'‖, niter + u.2, if stag q u.1 x' then -1 else 0⟩
        else if ∀ q, ¬ stag q u.1 x' then outerAll A b tolRel cyc stag n (niter + u.2) x'
        else if n = 0 then .answers fun _ => ⟨x', ‖b - A x'‖, niter + u.2, -1⟩
        else .stuck

/-- `fgmres` on all processes, each of which holds `len` entries (`fgmres.py` 133–276) -/
noncomputable def fgmresAll {P : Type*} (A : W → W) (b : W) (x0 : W) (tol : ℝ) (restart len : Nat) (maxiter : Nat) (hegedus : Bool)
    (cyc : W → W → Option (W × Nat)) (stag : P → W → W → Prop) : Together P W :=
  if len ≤ restart then .raised
  else if ‖b‖ = 0 then .answers fun _ => ⟨0, 0, 0, 0⟩
  else outerAll A b (tol * ‖b‖) cyc stag maxiter 0 (if hegedus then rescale A b x0 else x0)

/-- the test of one process for stagnation (`fgmres.py` 258–264): `mine` are its entries -/
def stagnates {ι : Type*} (mine : ι → Prop) (u x : ι → ℝ) : Prop :=
  (∃ i, mine i ∧ x i ≠ 0) ∧ ∀ i, mine i → x i ≠ 0 → |u i / x i| < 1e-12

end

end WxVerif.Gmres
