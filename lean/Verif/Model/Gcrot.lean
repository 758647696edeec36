import Mathlib.Analysis.InnerProductSpace.Basic

/-!
# Model of the GCROT linear solver

Source: `wx_factory/solvers/gcrot.py`, called from `wx_factory/integrators/ros2.py` 62-72 when `linear_solver` is not "fgmres", with
`M = None`, `m = 20`, `k = None`, `discard_C = False`, `truncate = "oldest"` (the other values of the last two are not modelled).

Exact real arithmetic; vectors in an inner product space.  Parameters (`Ext`): the pivoted QR factorisation of `scipy.linalg.qr`, the
entry `|Q[0, -1]|` of the QR factorisation updated by `qr_insert`, and the least-squares solution of `lstsq`.  The product `Q @ (R @ y)` is
taken to be `H y`, since `Q R = H`.  The check that `b` is finite has no counterpart.  A division by a zero `R[j, j]` gives `nan` in the code
and 0 here; it can happen only if all the stored images are zero.
-/

namespace WxVerif.Gcrot

variable {W : Type*} [NormedAddCommGroup W] [InnerProductSpace ℝ W]

/-- `numpy.finfo(float).eps` — `gcrot.py` 29 -/
noncomputable def eps : ℝ := 2⁻¹ ^ 52

/-- linear combination of a list of vectors -/
def comb (a : List ℝ) (v : List W) : W := (List.zipWith (fun x y => x • y) a v).sum

/-- the two loops of modified Gram-Schmidt — `gcrot.py` 60-63, 67-70: coefficients and remainder -/
def mgs : List W → W → List ℝ × W
  | [], w => ([], w)
  | c :: cs, w =>
    let alpha := inner ℝ c w
    let o := mgs cs (w - alpha • c)
    (alpha :: o.1, o.2)

/-- `vs`, `zs`, the columns of `B` and of `H` — `gcrot.py` 15-27 -/
structure Basis (W : Type*) where
  vs : List W
  zs : List W
  B : List (List ℝ)
  H : List (List ℝ)

/-- what SciPy computes — `gcrot.py` 100, 117-122, 191 -/
structure Ext (W : Type*) where
  /-- `qr(C, mode="economic", pivoting=True)`: the columns of `Q`, the entries of `R` and the permutation -/
  qrp : List W → List W × (Nat → Nat → ℝ) × (Nat → Nat)
  /-- `abs(Q[0, -1])` for the columns of `H` -/
  resid : List (List ℝ) → ℝ
  /-- the solution of `lstsq` for the columns of `H` -/
  lsq : List (List ℝ) → List ℝ

/-- One pass of the Arnoldi loop of `_fgmres` without `outer_v` — `gcrot.py` 36-89; the second value is `breakdown`. -/
noncomputable def arnoldi (A M : W → W) (cs : List W) (s : Basis W) : Basis W × Prop :=
  let z := M (s.vs.getLastD 0)
  let w := A z
  let wNorm := ‖w‖
  let b := mgs cs w
  let h := mgs s.vs b.2
  let last := ‖h.2‖
  let w' := if last = 0 then h.2 else last⁻¹ • h.2
  (⟨s.vs ++ [w'], s.zs ++ [z], s.B ++ [b.1], s.H ++ [h.1 ++ [last]]⟩, ¬ last > eps * wNorm)

open Classical in
/-- the loop of `_fgmres` — `gcrot.py` 36-110: `res < tol or breakdown` ends it -/
noncomputable def arnoldiLoop (e : Ext W) (A M : W → W) (tol : ℝ) (cs : List W) : Nat → Basis W → Basis W
  | 0, s => s
  | n + 1, s =>
    let o := arnoldi A M cs s
    if e.resid o.1.H < tol ∨ o.2 then o.1 else arnoldiLoop e A M tol cs n o.1

/-- back substitution `U := U P R⁻¹` with the test that discards the rest — `gcrot.py` 196-206 -/
noncomputable def backSub (us : List W) (R : Nat → Nat → ℝ) (P : Nat → Nat) : Nat → List W → List W
  | 0, acc => acc
  | n + 1, acc =>
    let j := acc.length
    let u := us.getD (P j) 0 - ∑ i ∈ Finset.range j, R i j • acc.getD i 0
    if |R j j| < 1e-12 * |R 0 0| then acc else backSub us R P n (acc ++ [(R j j)⁻¹ • u])

/-- the stored vectors with their images computed where they are missing, missing ones first — `gcrot.py` 173-188 -/
def filled (A : W → W) (cu : List (Option W × W)) : List (W × W) :=
  (cu.filter (·.1.isNone) ++ cu.filter (·.1.isSome)).map fun p => (p.1.getD (A p.2), p.2)

/-- reorthogonalisation of the vectors kept from the previous call — `gcrot.py` 171-209 -/
noncomputable def reorth (e : Ext W) (A : W → W) (cu : List (Option W × W)) : List (W × W) :=
  if cu = [] then []
  else
    let f := filled A cu
    let q := e.qrp (f.map (·.1))
    (q.1.zip (backSub (f.map (·.2)) q.2.1 q.2.2 q.1.length [])).reverse

/-- the initial projection — `gcrot.py` 221-224: solution and residual -/
def project : List (W × W) → W × W → W × W
  | [], s => s
  | (c, u) :: cu, (x, r) =>
    let yc : ℝ := inner ℝ c r
    project cu (x + yc • u, r - yc • c)

/-- the state of the main iteration -/
structure St (W : Type*) where
  x : W
  r : W
  cu : List (W × W)
  niter : Nat

/-- `truncate == "oldest"` — `gcrot.py` 302-304 -/
def dropOldest (k : Nat) (cu : List (W × W)) : List (W × W) := cu.drop (cu.length + 1 - k)

/-- the update after `_fgmres` — `gcrot.py` 266-300, 333: skipped when `V H y` is zero -/
noncomputable def outerStep (e : Ext W) (k : Nat) (s : St W) (beta : ℝ) (o : Basis W) : St W :=
  let y := (e.lsq o.H).map (beta * ·)
  let byv := (List.range s.cu.length).map fun i => (List.zipWith (fun col yj => col.getD i 0 * yj) o.B y).sum
  let ux := comb y o.zs - comb byv (s.cu.map (·.2))
  let cx := (List.zipWith (fun col yj => yj • comb col o.vs) o.H y).sum
  if ‖cx‖ = 0 then { s with niter := s.niter + o.zs.length }
  else
    let cx' := ‖cx‖⁻¹ • cx
    let ux' := ‖cx‖⁻¹ • ux
    let gamma : ℝ := inner ℝ cx' s.r
    ⟨s.x + gamma • ux', s.r - gamma • cx', dropOldest k s.cu ++ [(cx', ux')], s.niter + o.zs.length⟩

/-- the main iteration — `gcrot.py` 227-333: passes left, whether this is the first pass, the last `beta`, the state; it returns the state
and `beta` -/
noncomputable def mainLoop (e : Ext W) (A M : W → W) (b : W) (tol : ℝ) (m k : Nat) : Nat → Bool → ℝ → St W → St W × ℝ
  | 0, _, beta, s => (s, beta)
  | n + 1, first, _, s =>
    let betaTol := tol * ‖b‖
    let s := if ‖s.r‖ ≤ betaTol ∧ (first = false ∨ s.cu ≠ []) then { s with r := b - A s.x } else s
    let beta := ‖s.r‖
    if beta ≤ betaTol then (s, beta)
    else
      let ml := m + (k - s.cu.length)
      let o := arnoldiLoop e A M (tol * ‖b‖ / beta) (s.cu.map (·.1)) ml ⟨[beta⁻¹ • s.r], [], [], []⟩
      mainLoop e A M b tol m k n false beta (outerStep e k s beta o)

/-- what `gcrot` returns: solution, `beta`, number of inner iterations, flag; and the vectors kept for the next call -/
structure Answer (W : Type*) where
  x : W
  beta : ℝ
  niter : Nat
  flag : Nat
  kept : List (Option W × W)

/-- `gcrot` — `gcrot.py` 130-342; `cu` is the function attribute `gcrot.CU` left by the previous call.  The early return for `b = 0` leaves
the attribute as it was.  `none`: `beta` is not defined when `maxiter` is 0. -/
noncomputable def gcrot (e : Ext W) (A M : W → W) (m k maxiter : Nat) (cu : List (Option W × W)) (b x0 : W) (tol : ℝ) : Option (Answer W) :=
  if ‖b‖ = 0 then some ⟨b, 0, 0, 0, cu⟩
  else
    let c := reorth e A cu
    let p := project c (x0, b - A x0)
    if maxiter = 0 then none
    else
      let o := mainLoop e A M b tol m k maxiter true 0 ⟨p.1, p.2, c, 0⟩
      some ⟨o.1.x, o.2, o.1.niter, 0, o.1.cu.map (fun q => (some q.1, q.2)) ++ [(none, o.1.x)]⟩

end WxVerif.Gcrot
