import Verif.Model.Krylov
import Mathlib.LinearAlgebra.BilinearForm.Basic

/-!
# Model of the exponential solvers with few global reductions

Sources: `wx_factory/solvers/` `cwy_1s.py`, `icwy_1s.py`, `pmex_1s.py` (one reduction per vector, normalization delayed by one
pass), `cwy_ne1s.py`, `icwy_ne1s.py`, `pmex_ne1s.py` (the same with an estimate of the norm), `cwy_ne.py`, `icwy_ne.py` (an
estimate of the norm), `kiops_nest.py`, `icwy_neiop.py` (incomplete orthogonalization) and `dcgs2.py`.

They are selected by name in `integrators/epi.py` 139–296.  Their step control is the one of `kiops` (`Model/KrylovControl.lean`);
what differs, and is modelled here, is how the basis and the Hessenberg matrix are built.  Exact real arithmetic: the quadruple
precision of the sums changes nothing.  `B` is the bilinear form that a global reduction evaluates on two rows of the basis.
`none` stands for a pass that has no usable result: a division by a zero norm, which puts NaN in rows that enter the answer,
the logarithm of a zero error estimate, or an exception of `numpy`.
-/

namespace WxVerif.Krylov.LowSync

open WxVerif.Krylov (setV)

/-- the three ways to correct for the loss of orthogonality: compact WY, inverse compact WY, Gauss-Seidel -/
inductive Corr
  | cwy | icwy | pm
  deriving DecidableEq

/-- the small matrices that live through a call -/
structure Mats where
  T : Nat → Nat → ℝ
  M : Nat → Nat → ℝ
  N : Nat → Nat → ℝ
  Minv : Nat → Nat → ℝ

/-- `eye` and `zeros` (`cwy_1s.py` 81, `icwy_1s.py` 76, `cwy_ne.py` 75, `icwy_ne.py` 75, `cwy_ne1s.py` 75, `icwy_ne1s.py` 74,
    `pmex_1s.py` 62–66, `pmex_ne1s.py` 54–58) -/
def Mats.init : Mats where
  T := fun a b => if a = b then 1 else 0
  M := fun a b => if a = b then 1 else 0
  N := fun _ _ => 0
  Minv := fun a b => if a = b then 1 else 0

/-- the coefficients that are subtracted, from the products `r` of the earlier vectors with the previous one and the products
    `g` with the new one.  Compact WY: `cwy_1s.py` 203–208, `cwy_ne.py` 208–215, `cwy_ne1s.py` 199–204; inverse compact WY:
    `icwy_1s.py` 199–206, `icwy_ne.py` 172–179, `icwy_ne1s.py` 203–210; Gauss-Seidel: `pmex_1s.py` 186–198, `pmex_ne1s.py`
    183–195, whose triangular solve returns its right-hand side (see `pmexSol`). -/
noncomputable def correct (c : Corr) (x : Mats) (j : Nat) (r g : Nat → ℝ) : Mats × (Nat → ℝ) :=
  match c with
  | .cwy =>
    let T := fun a b => if 1 < j ∧ a = j - 1 ∧ b < j - 1 then -∑ k ∈ Finset.range (j - 1), r k * x.T k b else x.T a b
    ({ x with T := T }, fun i => ∑ k ∈ Finset.range j, T i k * g k)
  | .icwy =>
    let T := fun a b => if 1 < j ∧ a = j - 1 ∧ b < j - 1 then -r b else x.T a b
    ({ x with T := T }, fun i => ∑ k ∈ Finset.range j, T i k * g k)
  | .pm =>
    let M := fun a b => if 1 < j ∧ a = j - 1 ∧ b < j - 1 then r b else x.M a b
    let N := fun a b => if 1 < j ∧ b = j - 1 ∧ a < j - 1 then -r a else x.N a b
    let Minv := fun a b => if 1 < j ∧ a = j - 1 ∧ b < j - 1 then -∑ k ∈ Finset.range (j - 1), r k * x.Minv k b
      else x.Minv a b
    ({ x with M := M, N := N, Minv := Minv }, pmexSol N Minv j g)

variable {W : Type*} [AddCommGroup W] [Module ℝ W]

/-- the arrays and flags of a call: basis, Hessenberg matrix, small matrices, `β`, size of the space, breakdown,
    `prev_normalized`, `prev_nrm_est` -/
structure Mem (W : Type*) where
  V : Nat → W
  H : Nat → Nat → ℝ
  mats : Mats
  beta : ℝ
  j : Nat
  happy : Bool
  normed : Bool
  est : ℝ

/-- the arrays at the start of a call -/
def fresh : Mem W where
  V := fun _ => 0
  H := fun _ _ => 0
  mats := Mats.init
  beta := 0
  j := 0
  happy := false
  normed := false
  est := 0

/-! ## One reduction per vector -/

/-- what one pass over a new vector leaves, before the end of the pass: rows, matrix, small matrices, coefficients, products with
    the new vector, its square, the norm of the previous vector and `β` -/
structure Proj (W : Type*) where
  V : Nat → W
  H : Nat → Nat → ℝ
  mats : Mats
  tmp : Nat → ℝ
  g : Nat → ℝ
  vv : ℝ
  nrm : ℝ
  beta : ℝ

/-- the projection with the delayed normalization of the previous row: `cwy_1s.py` 180–209, `icwy_1s.py` 179–207, `pmex_1s.py`
    159–201, `cwy_ne1s.py` 175–205, `icwy_ne1s.py` 177–211, `pmex_ne1s.py` 155–198.  `wrap` is the last column of the matrix in the
    one-reduction solvers: at the first vector they write `H[0, -1]`; the others do not write there.  The row `j - 1` and the new row
    are divided by the norm, so are the products with the new vector, the last ones twice. -/
noncomputable def lagged (c : Corr) (B : LinearMap.BilinForm ℝ W) (wrap : Option Nat) (s : Mem W) (V : Nat → W) (v : W) :
    Option (Proj W) :=
  let nrm := Real.sqrt (B (V s.j) (V s.j))
  if s.normed = false ∧ nrm = 0 then none
  else
    let a := if s.normed then 1 else nrm⁻¹
    let r := fun i => a * B (V i) (V s.j)
    let g := fun i => if i < s.j then a * B (V i) v else a * (a * B (V s.j) v)
    let V1 := setV V s.j (a • V s.j)
    let H := if s.normed then s.H else
      match (if s.j = 0 then wrap else some (s.j - 1)) with
      | none => s.H
      | some col => fun x y => if x = s.j ∧ y = col then nrm else s.H x y
    let p := correct c s.mats (s.j + 1) r g
    some { V := setV V1 (s.j + 1) (a • v - ∑ i ∈ Finset.range (s.j + 1), p.2 i • V1 i), H := H, mats := p.1, tmp := p.2, g := g,
           vv := a * (a * B v v), nrm := nrm, beta := if s.j = 0 then nrm else s.beta }

/-- one pass of the loop of `cwy_1s` (171–220), `icwy_1s` (168–218), `pmex_1s` (150–213): the breakdown test looks at the norm of the
    *previous* row -/
noncomputable def oneSyncStep (c : Corr) (B : LinearMap.BilinForm ℝ W) (T : W →ₗ[ℝ] W) (tol : ℝ) (mmax : Nat) (s : Mem W) :
    Option (Mem W) :=
  (lagged c B (some mmax) s s.V (T (s.V s.j))).map fun p =>
    let s' := { s with V := p.V, H := p.H, mats := p.mats, beta := p.beta, j := s.j + 1 }
    if p.nrm < tol then { s' with happy := true }
    else { s' with H := fun a b => if b = s.j ∧ a < s.j + 1 then p.tmp a else p.H a b, normed := false }

/-- one pass of the loop of `cwy_ne1s` (159–241), `icwy_ne1s` (161–247), `pmex_ne1s` (139–236), for a pass that goes up to `m`
    vectors: the previous row is scaled back, and every row but the last one is divided by its estimated norm -/
noncomputable def estSyncStep (c : Corr) (B : LinearMap.BilinForm ℝ W) (T : W →ₗ[ℝ] W) (tol : ℝ) (m : Nat) (s : Mem W) :
    Option (Mem W) :=
  let e := if 0 < s.j ∧ s.normed = false then s.est else 1
  (lagged c B none s (setV s.V s.j (e • s.V s.j)) (e • T (s.V s.j))).map fun p =>
    let s' := { s with V := p.V, H := fun a b => if b = s.j ∧ a < s.j + 1 then p.tmp a else p.H a b, mats := p.mats,
                       beta := p.beta, j := s.j + 1 }
    if s.j + 1 < m then
      let sumSq := ∑ i ∈ Finset.range (s.j + 1), p.g i ^ 2
      let cur := if p.vv < sumSq then Real.sqrt (B (p.V (s.j + 1)) (p.V (s.j + 1))) else Real.sqrt (p.vv - sumSq)
      if cur < tol then { s' with happy := true }
      else { s' with V := setV p.V (s.j + 1) (cur⁻¹ • p.V (s.j + 1)), est := cur, normed := false }
    else { s' with normed := false }

/-- `while j < m` with the `break` at the breakdown -/
def loop (step : Mem W → Option (Mem W)) (m : Nat) : Nat → Mem W → Option (Mem W)
  | 0, s => some s
  | fuel + 1, s => if s.j < m ∧ s.happy = false then (step s).bind (loop step m fuel) else some s

/-- the normalization of the last row (`cwy_1s.py` 225–234, `icwy_1s.py` 223–233, `pmex_1s.py` 218–235, `cwy_ne1s.py` 246–255,
    `icwy_ne1s.py` 253–263, `pmex_ne1s.py` 241–250); `Bf` is its reduction.  A zero norm ends the call with an exception: the error
    estimate is then 0 and its logarithm is taken.  After a breakdown the row that is divided is not read any more. -/
noncomputable def finish (Bf : LinearMap.BilinForm ℝ W) (m : Nat) (s : Mem W) : Option (Mem W) :=
  if s.happy then some { s with normed := true }
  else
    let n := Real.sqrt (Bf (s.V m) (s.V m))
    if n = 0 then none
    else some { s with V := setV s.V m (n⁻¹ • s.V m), H := fun a b => if a = m ∧ b = m - 1 then n else s.H a b, normed := true }

/-- one pass of the outer loop up to the exponential, for a size `m` larger than the one reached -/
noncomputable def pass (step : Nat → Mem W → Option (Mem W)) (Bf : LinearMap.BilinForm ℝ W) (m : Nat) (s : Mem W) :
    Option (Mem W) :=
  (loop (step m) m m { s with est := 0 }).bind (finish Bf m)

/-- the start of a sub-step: the row is *not* normalized (`cwy_1s.py` 154–168, `icwy_1s.py` 148–164, `pmex_1s.py` 124–147,
    `cwy_ne1s.py` 137–153, `icwy_ne1s.py` 139–155, `pmex_ne1s.py` 110–133); the flags are those of the start of a call or of an
    accepted sub-step (`cwy_1s.py` 351–355 and the same lines of the others) -/
def start (v : W) (s : Mem W) : Mem W :=
  { s with V := setV s.V 0 v, H := fun _ _ => 0, j := 0, happy := false, normed := false }

/-- a rejected pass: `H[0, j]` is set back to zero (`cwy_1s.py` 364 and the same line of the others) -/
def rejected (s : Mem W) : Mem W := { s with H := fun a b => if a = 0 ∧ b = s.j then 0 else s.H a b }

/-- a sub-step with the sizes `ms`: every size but the last one is rejected -/
noncomputable def sizes (pass : Nat → Mem W → Option (Mem W)) : List Nat → Mem W → Option (Mem W)
  | [], s => some s
  | [m], s => pass m s
  | m :: m' :: ms, s => (pass m s).bind fun s' => sizes pass (m' :: ms) (rejected s')

/-- the sub-step of the one-reduction solvers -/
noncomputable def oneSyncRun (c : Corr) (B Bf : LinearMap.BilinForm ℝ W) (T : W →ₗ[ℝ] W) (tol : ℝ) (mmax : Nat) (ms : List Nat)
    (v : W) (s : Mem W) : Option (Mem W) :=
  sizes (pass (fun _ => oneSyncStep c B T tol mmax) Bf) ms (start v s)

/-- the sub-step of the one-reduction solvers with an estimated norm -/
noncomputable def estSyncRun (c : Corr) (B Bf : LinearMap.BilinForm ℝ W) (T : W →ₗ[ℝ] W) (tol : ℝ) (ms : List Nat)
    (v : W) (s : Mem W) : Option (Mem W) :=
  sizes (pass (estSyncStep c B T tol) Bf) ms (start v s)

/-! ## Estimated norm, immediate normalization -/

/-- one pass of the loop of `cwy_ne` (162–256) and `icwy_ne` (156–208).  When the estimate of the square is negative, `icwy_ne`
    computes the norm with a further reduction; the same branch of `cwy_ne` (232–237) calls `numpy.empty_link`, which does not
    exist, and reads the undefined name `gloal_sum_nrm` -/
noncomputable def normEstStep (c : Corr) (B : LinearMap.BilinForm ℝ W) (T : W →ₗ[ℝ] W) (tol : ℝ) (s : Mem W) : Option (Mem W) :=
  let v := T (s.V s.j)
  let r := fun i => B (s.V i) (s.V s.j)
  let g := fun i => B (s.V i) v
  let p := correct c s.mats (s.j + 1) r g
  let v' := v - ∑ i ∈ Finset.range (s.j + 1), p.2 i • s.V i
  let sumSq := ∑ i ∈ Finset.range (s.j + 1), g i ^ 2
  if B v v < sumSq ∧ c = .cwy then none
  else
    let nrm := if B v v < sumSq then Real.sqrt (B v' v') else Real.sqrt (B v v - sumSq)
    let s' := { s with mats := p.1, j := s.j + 1 }
    if nrm < tol then some { s' with V := setV s.V (s.j + 1) v', happy := true }
    else some { s' with V := setV s.V (s.j + 1) (nrm⁻¹ • v'),
                        H := fun a b => if b = s.j ∧ a < s.j + 1 then p.2 a else if a = s.j + 1 ∧ b = s.j then nrm else s.H a b }

/-- the start of a sub-step: the row is normalized (`cwy_ne.py` 142–159, `icwy_ne.py` 137–154) -/
noncomputable def startNormed (B : LinearMap.BilinForm ℝ W) (v : W) (s : Mem W) : Mem W :=
  let b := Real.sqrt (B v v)
  { s with V := setV s.V 0 (b⁻¹ • v), H := fun _ _ => 0, beta := b, j := 0, happy := false }

/-- the sub-step of `cwy_ne` and `icwy_ne` -/
noncomputable def normEstRun (c : Corr) (B : LinearMap.BilinForm ℝ W) (T : W →ₗ[ℝ] W) (tol : ℝ) (ms : List Nat) (v : W)
    (s : Mem W) : Option (Mem W) :=
  sizes (fun m => loop (normEstStep c B T tol) m m) ms (startNormed B v s)

/-! ## Incomplete orthogonalization -/

/-- one pass of the loop of `kiops_nest` (157–201); `B` is the reduction of the products and `B1` the one of the norm.  The products
    of at most two rows are kept (`idx = min(1, j - 1)`), for `min(iop, j)` rows of the matrix: other values of `iop` than 2 end
    in a broadcast error. -/
noncomputable def nestStep (B B1 : LinearMap.BilinForm ℝ W) (T : W →ₗ[ℝ] W) (iop : Nat) (tol : ℝ) (s : Mem W) : Option (Mem W) :=
  let v := T (s.V s.j)
  let ilow := s.j + 1 - iop
  if s.j + 1 - ilow ≠ min 2 (s.j + 1) then none
  else
    let H := fun a b => if b = s.j ∧ ilow ≤ a ∧ a < s.j + 1 then B (s.V a) v else s.H a b
    let v' := v - ∑ i ∈ Finset.Ico ilow (s.j + 1), H i s.j • s.V i
    let sumSq := ∑ i ∈ Finset.Ico ilow (s.j + 1), B (s.V i) v ^ 2
    let nrm := if B v v < sumSq then Real.sqrt (B1 v' v') else Real.sqrt (B v v - sumSq)
    if nrm < tol then some { s with V := setV s.V (s.j + 1) v', H := H, j := s.j + 1, happy := true }
    else some { s with V := setV s.V (s.j + 1) (nrm⁻¹ • v'), H := fun a b => if a = s.j + 1 ∧ b = s.j then nrm else H a b,
                       j := s.j + 1 }

/-- the sub-step of `kiops_nest`; its start (137–151) is the one of `cwy_ne`, with the norm `B1` -/
noncomputable def nestRun (B B1 : LinearMap.BilinForm ℝ W) (T : W →ₗ[ℝ] W) (iop : Nat) (tol : ℝ) (ms : List Nat) (v : W)
    (s : Mem W) : Option (Mem W) :=
  sizes (fun m => loop (nestStep B B1 T iop tol) m m) ms (startNormed B1 v s)

/-- one pass of the loop of `icwy_neiop` (157–211).  The matrix `T` is 2×2 (75), so that `T @ global_temp[0:iop, 1]` needs `iop = 2`
    from the second vector on; `t` is its entry `T[1, 0]` -/
noncomputable def neiopStep (B : LinearMap.BilinForm ℝ W) (T : W →ₗ[ℝ] W) (iop : Nat) (tol : ℝ) (s : Mem W) : Option (Mem W) :=
  let v := T (s.V s.j)
  if 1 ≤ s.j ∧ iop ≠ 2 then none
  else
    let lo := s.j + 1 - iop
    let g := fun i => B (s.V (lo + i)) v
    let t := if 1 ≤ s.j then -B (s.V lo) (s.V s.j) else 0
    let tmp := fun i => if i = 0 then g 0 else t * g 0 + g 1
    let n := if 1 ≤ s.j then 2 else 1
    let v' := v - ∑ i ∈ Finset.range n, tmp i • s.V (lo + i)
    let sumSq := ∑ i ∈ Finset.range n, g i ^ 2
    let nrm := if B v v < sumSq then Real.sqrt (B v' v') else Real.sqrt (B v v - sumSq)
    if nrm < tol then some { s with V := setV s.V (s.j + 1) v', j := s.j + 1, happy := true }
    else some { s with V := setV s.V (s.j + 1) (nrm⁻¹ • v'),
                       H := fun a b => if b = s.j ∧ lo ≤ a ∧ a < s.j + 1 then tmp (a - lo)
                         else if a = s.j + 1 ∧ b = s.j then nrm else s.H a b,
                       j := s.j + 1 }

/-- the sub-step of `icwy_neiop` (137–211) -/
noncomputable def neiopRun (B : LinearMap.BilinForm ℝ W) (T : W →ₗ[ℝ] W) (iop : Nat) (tol : ℝ) (ms : List Nat) (v : W)
    (s : Mem W) : Option (Mem W) :=
  sizes (fun m => loop (neiopStep B T iop tol) m m) ms (startNormed B v s)

/-! ## Delayed re-orthogonalization -/

/-- one pass of the loop of `dcgs2` (159–228) -/
noncomputable def dcgs2Step (B : LinearMap.BilinForm ℝ W) (T : W →ₗ[ℝ] W) (tol : ℝ) (s : Mem W) : Option (Mem W) :=
  let v := T (s.V s.j)
  if s.j = 0 ∨ s.normed then
    let h := B (s.V s.j) v
    some { s with V := setV s.V (s.j + 1) (v - h • s.V s.j), H := fun a b => if a = s.j ∧ b = s.j then h else s.H a b, j := s.j + 1,
                  normed := false }
  else
    let r := fun i => B (s.V i) (s.V s.j)
    let q := r s.j - ∑ i ∈ Finset.range s.j, r i ^ 2
    if q ≤ 0 then none
    else
      let nrm := Real.sqrt q
      let gl := (B (s.V s.j) v - ∑ i ∈ Finset.range s.j, r i * B (s.V i) v) / nrm ^ 2
      let g := fun i => if i < s.j then B (s.V i) v / nrm else gl
      let V1 := setV s.V s.j (nrm⁻¹ • (s.V s.j - ∑ i ∈ Finset.range s.j, r i • s.V i))
      let H1 := fun a b => if b = s.j - 1 ∧ a < s.j then s.H a b + r a else s.H a b
      let H2 := fun a b => if b = s.j ∧ a < s.j + 1 then g a - (∑ k ∈ Finset.range s.j, H1 a k * r k) / nrm else H1 a b
      some { s with V := setV V1 (s.j + 1) (nrm⁻¹ • v - ∑ i ∈ Finset.range (s.j + 1), g i • V1 i),
                    H := fun a b => if a = s.j ∧ b = s.j - 1 then nrm else H2 a b, j := s.j + 1, happy := decide (nrm < tol),
                    normed := if nrm < tol then s.normed else false }

/-- the end of a pass of `dcgs2` (234–247): the array of products has `m` entries, so that `global_sum[-1]` is the product of the
    last row with the one before it, not its square.  A negative value gives NaN, zero the logarithm of zero. -/
noncomputable def dcgs2Finish (B : LinearMap.BilinForm ℝ W) (m : Nat) (s : Mem W) : Option (Mem W) :=
  if s.happy then some { s with normed := true }
  else
    let g := fun i => B (s.V i) (s.V m)
    let q := g (m - 1) - ∑ i ∈ Finset.range m, g i ^ 2
    if q ≤ 0 then none
    else
      let n := Real.sqrt q
      some { s with V := setV s.V m (n⁻¹ • (s.V m - ∑ i ∈ Finset.range m, g i • s.V i)),
                    H := fun a b => if b = m - 1 ∧ a = m then n else if b = m - 1 ∧ a < m then s.H a b + g a else s.H a b,
                    normed := true }

/-- the start of a sub-step of `dcgs2` (137–152): `β` is computed, the row is not divided by it -/
noncomputable def dcgs2Start (B : LinearMap.BilinForm ℝ W) (v : W) (s : Mem W) : Mem W :=
  { start v s with beta := Real.sqrt (B v v) }

/-- the sub-step of `dcgs2` -/
noncomputable def dcgs2Run (B : LinearMap.BilinForm ℝ W) (T : W →ₗ[ℝ] W) (tol : ℝ) (ms : List Nat) (v : W) (s : Mem W) :
    Option (Mem W) :=
  sizes (fun m s => (loop (dcgs2Step B T tol) m m s).bind (dcgs2Finish B m)) ms (dcgs2Start B v s)

/-! ## The update, and several processes -/

/-- the matrix whose exponential is taken (`cwy_1s.py` 236–244 and the same lines of the others) -/
def expArg (s : Mem W) : Matrix (Fin (s.j + 1)) (Fin (s.j + 1)) ℝ :=
  fun a b => if (b : Nat) = s.j ∧ (a : Nat) = 0 then 1
    else if (a : Nat) = s.j ∧ (b : Nat) + 1 = s.j then 0 else s.H a b

/-- `β * F[:j, 0] @ V[:j]` (`cwy_1s.py` 346 and the same line of the others) -/
noncomputable def update (tau : ℝ) (s : Mem W) : W :=
  let F := NormedSpace.exp (tau • expArg s)
  s.beta • ∑ k : Fin s.j, F k.castSucc 0 • s.V k

variable {E F : Type*} [AddCommGroup E] [Module ℝ E] [AddCommGroup F] [Module ℝ F]

/-- the reduction of the products of whole rows on `P` processes: every process adds the product of its own copy of the augmented
    entries (`icwy_1s.py` 179–182, `cwy_ne1s.py` 176–178, `icwy_ne1s.py` 179–181, `pmex_ne1s.py` 156–158, `kiops_nest.py` 175–176, and the final
    norms `cwy_1s.py` 226–229, `pmex_1s.py` 219–222) -/
noncomputable def rowForm (P : Nat) (Bx : LinearMap.BilinForm ℝ E) (Ba : LinearMap.BilinForm ℝ F) : LinearMap.BilinForm ℝ (E × F) :=
  Bx.compl₁₂ (LinearMap.fst ℝ E F) (LinearMap.fst ℝ E F) + (P : ℝ) • Ba.compl₁₂ (LinearMap.snd ℝ E F) (LinearMap.snd ℝ E F)

end WxVerif.Krylov.LowSync
