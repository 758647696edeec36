import Verif.Lemmas.EulerSphere
import Verif.Props.Metric3D
import Verif.Props.RestState
import Mathlib.Analysis.Calculus.Deriv.Polynomial

/-!
# C72 — the slopes of the terrain-following levels

When the floor of an element is a polynomial of degree less than `n` in each horizontal direction (a height that the grid can represent), the
slopes that the metric is built from are the derivatives of the height of the levels: at the solution points, extrapolated to every side, and on
the interfaces between levels.  On the interfaces between columns the averaged slope is multiplied by the product of the two auxiliary metric
matrices of `metric3d.py`, which is not the identity: there the slopes are wrong wherever `X Y ≠ 0` (`C72_interface_fails`).
-/

namespace WxVerif.Props.Slopes

open WxVerif.Topology WxVerif.Sphere WxVerif.Dfr WxVerif.Flux WxVerif.EulerSphere WxVerif.Cube
open WxVerif.ShallowWater (Grid node)
open WxVerif.ShallowWater.Grid (itfIndex)
open Polynomial hiding comp eta
open WxVerif.Props.RestState (pts_inj)

/-! ## Specification: the terrain and the height of the levels -/

/-- a polynomial in two variables, of degree less than `n` in each -/
noncomputable def biPoly (n : Nat) (a : Nat → Nat → ℝ) (x y : ℝ) : ℝ := ∑ i ∈ Finset.range n, ∑ j ∈ Finset.range n, a i j * x ^ i * y ^ j

/-- the floor of element `(ej, ei)` of tile `r` is `biPoly a` in the reference coordinates of the element: at the solution points and on the
four sides -/
structure Represents (g : Atm) (f : Floor) (r ej ei : Nat) (a : Nat → Nat → ℝ) : Prop where
  inside : ∀ j < g.n, ∀ i < g.n, f.z r ej ei (j * g.n + i) = biPoly g.n a (g.pts i) (g.pts j)
  west : ∀ l < g.n, f.itfI r ej ei l = biPoly g.n a (-1) (g.pts l)
  east : ∀ l < g.n, f.itfI r ej (ei + 1) l = biPoly g.n a 1 (g.pts l)
  south : ∀ l < g.n, f.itfJ r ej ei l = biPoly g.n a (g.pts l) (-1)
  north : ∀ l < g.n, f.itfJ r (ej + 1) ei l = biPoly g.n a (g.pts l) 1

/-- height of the level `η` over the point `(x, y)` of an element: linear from the floor (`η = 0`) to the top of the model (`η = 1`) -/
noncomputable def level (g : Atm) (a : Nat → Nat → ℝ) (x y η : ℝ) : ℝ := (1 - η) * biPoly g.n a x y + η * g.ztop

/-- the three derivatives of the height of the levels: along `x1` and `x2` (per unit of coordinate: an element of width `Δ` is two reference
units wide) and along `η` -/
noncomputable def trueSlope (g : Atm) (a : Nat → Nat → ℝ) (r d : Nat) (x y η : ℝ) : ℝ :=
  if d = 0 then deriv (fun s => level g a s y η) x * 2 / g.delta1 r
  else if d = 1 then deriv (fun s => level g a x s η) y * 2 / g.delta2 r
  else deriv (fun s => level g a x y s) η

/-! ## Polynomials -/

/-- coefficients of the derivative along `x` -/
def dxc (n : Nat) (a : Nat → Nat → ℝ) (i j : Nat) : ℝ := if i + 1 < n then (i + 1 : ℝ) * a (i + 1) j else 0
/-- coefficients of the derivative along `y` -/
def dyc (n : Nat) (a : Nat → Nat → ℝ) (i j : Nat) : ℝ := if j + 1 < n then (j + 1 : ℝ) * a i (j + 1) else 0

/-- the line through an element with `y` fixed -/
noncomputable def lineX (n : Nat) (a : Nat → Nat → ℝ) (y : ℝ) : ℝ[X] := ∑ i ∈ Finset.range n, C (∑ j ∈ Finset.range n, a i j * y ^ j) * X ^ i

/-- the line with `x` fixed -/
noncomputable def lineY (n : Nat) (a : Nat → Nat → ℝ) (x : ℝ) : ℝ[X] := lineX n (fun i j => a j i) x

theorem biPoly_swap (n : Nat) (a : Nat → Nat → ℝ) (x y : ℝ) : biPoly n (fun i j => a j i) y x = biPoly n a x y := by
  unfold biPoly
  rw [Finset.sum_comm]
  exact Finset.sum_congr rfl fun i _ => Finset.sum_congr rfl fun j _ => by ring

theorem lineX_eval (n : Nat) (a : Nat → Nat → ℝ) (x y : ℝ) : (lineX n a y).eval x = biPoly n a x y := by
  unfold lineX biPoly
  rw [eval_finset_sum]
  refine Finset.sum_congr rfl fun i _ => ?_
  rw [eval_mul, eval_C, eval_pow, eval_X, Finset.sum_mul]
  exact Finset.sum_congr rfl fun j _ => by ring

theorem lineY_eval (n : Nat) (a : Nat → Nat → ℝ) (x y : ℝ) : (lineY n a x).eval y = biPoly n a x y := by
  rw [lineY, lineX_eval, biPoly_swap]

theorem lineX_degree (n : Nat) (a : Nat → Nat → ℝ) (y : ℝ) : (lineX n a y).degree < (n : WithBot Nat) := by
  rw [← mem_degreeLT, lineX]
  refine Submodule.sum_mem _ fun i hi => ?_
  rw [mem_degreeLT]
  refine lt_of_le_of_lt (degree_C_mul_X_pow_le i _) ?_
  exact_mod_cast Finset.mem_range.1 hi

theorem lineY_degree (n : Nat) (a : Nat → Nat → ℝ) (x : ℝ) : (lineY n a x).degree < (n : WithBot Nat) := lineX_degree _ _ _

theorem lineX_deriv (n : Nat) (a : Nat → Nat → ℝ) (x y : ℝ) : (derivative (lineX n a y)).eval x = biPoly n (dxc n a) x y := by
  rw [← lineX_eval]
  unfold lineX
  rw [derivative_sum, eval_finset_sum, eval_finset_sum]
  cases n with
  | zero => simp
  | succ m =>
    rw [Finset.sum_range_succ' (fun i => eval x (derivative (C (∑ j ∈ Finset.range (m + 1), a i j * y ^ j) * X ^ i))),
      Finset.sum_range_succ (fun i => eval x (C (∑ j ∈ Finset.range (m + 1), dxc (m + 1) a i j * y ^ j) * X ^ i))]
    congr 1
    · refine Finset.sum_congr rfl fun i hi => ?_
      have hi' : i + 1 < m + 1 := by have := Finset.mem_range.1 hi; omega
      simp only [derivative_C_mul_X_pow, eval_mul, eval_C, eval_pow, eval_X, dxc, if_pos hi', Nat.add_sub_cancel]
      rw [Finset.sum_mul, Finset.sum_mul, Finset.sum_mul]
      refine Finset.sum_congr rfl fun j _ => ?_
      push_cast; ring
    · simp only [pow_zero, mul_one, derivative_C, eval_zero]
      simp [dxc]

theorem lineY_deriv (n : Nat) (a : Nat → Nat → ℝ) (x y : ℝ) : (derivative (lineY n a x)).eval y = biPoly n (dyc n a) x y := by
  rw [lineY, lineX_deriv, ← biPoly_swap n (dyc n a)]
  rfl

theorem biPoly_dx (n : Nat) (a : Nat → Nat → ℝ) (x y : ℝ) : HasDerivAt (fun s => biPoly n a s y) (biPoly n (dxc n a) x y) x := by
  have h := (lineX n a y).hasDerivAt x
  simp only [lineX_eval] at h
  rwa [lineX_deriv] at h

theorem biPoly_dy (n : Nat) (a : Nat → Nat → ℝ) (x y : ℝ) : HasDerivAt (fun s => biPoly n a x s) (biPoly n (dyc n a) x y) y := by
  have h := (lineY n a x).hasDerivAt y
  simp only [lineY_eval] at h
  rwa [lineY_deriv] at h

variable {g : Atm} {f : Floor} {a : Nat → Nat → ℝ}

theorem trueSlope_zero (r : Nat) (x y η : ℝ) : trueSlope g a r 0 x y η = (1 - η) * biPoly g.n (dxc g.n a) x y * 2 / g.delta1 r := by
  rw [trueSlope, if_pos rfl]
  have h : HasDerivAt (fun s => level g a s y η) _ x := ((biPoly_dx g.n a x y).const_mul (1 - η)).add_const (η * g.ztop)
  rw [h.deriv]

theorem trueSlope_one (r : Nat) (x y η : ℝ) : trueSlope g a r 1 x y η = (1 - η) * biPoly g.n (dyc g.n a) x y * 2 / g.delta2 r := by
  rw [trueSlope, if_neg (by decide), if_pos rfl]
  have h : HasDerivAt (fun s => level g a x s η) _ y := ((biPoly_dy g.n a x y).const_mul (1 - η)).add_const (η * g.ztop)
  rw [h.deriv]

theorem trueSlope_two (r : Nat) (x y η : ℝ) : trueSlope g a r 2 x y η = g.ztop - biPoly g.n a x y := by
  rw [trueSlope, if_neg (by decide), if_neg (by decide)]
  have h : HasDerivAt (fun s => level g a x y s) _ η :=
    (((hasDerivAt_id η).const_sub 1).mul_const (biPoly g.n a x y)).add ((hasDerivAt_id η).mul_const g.ztop)
  rw [h.deriv]; ring

/-! ## Heights -/

theorem stretch_level (x y η : ℝ) : stretch g (biPoly g.n a x y) η = level g a x y η := by unfold stretch level; ring

theorem index3 {n k j i : Nat} (hj : j < n) (hi : i < n) :
    ((k * n + j) * n + i) % (n * n) = j * n + i ∧ ((k * n + j) * n + i) / (n * n) = k := by
  have hji : j * n + i < n * n := by nlinarith
  rw [show (k * n + j) * n + i = k * (n * n) + (j * n + i) by ring]
  exact ⟨mod_of hji, div_of hji⟩

/-- the heights of the solution points are those of the levels -/
theorem C72_height {r ej ei : Nat} (hf : Represents g f r ej ei a) (ek : Nat) {k j i : Nat} (hj : j < g.n) (hi : i < g.n) :
    height g f r ek ej ei ((k * g.n + j) * g.n + i) = level g a (g.pts i) (g.pts j) (eta g ek (g.pts k)) := by
  obtain ⟨h1, h2⟩ := index3 (k := k) hj hi
  rw [height, h1, h2, hf.inside j hj i hi, stretch_level]

section Exact

variable (hinj : Set.InjOn (extension g.n g.pts) (Finset.range (g.n + 2)))

theorem lift_degree {p : ℝ[X]} {n : Nat} (c : ℝ) (b : ℝ) (hn : 1 ≤ n) (hp : p.degree < (n : WithBot Nat)) :
    (C c * p + C b).degree < (n : WithBot Nat) := by
  rw [← mem_degreeLT] at *
  refine Submodule.add_mem _ ?_ ?_
  · rw [← smul_eq_C_mul]; exact Submodule.smul_mem _ _ hp
  · rw [mem_degreeLT]
    exact lt_of_le_of_lt degree_C_le (by exact_mod_cast hn)

include hinj in
/-- **C72 (solution points).**  At every solution point the three slopes are the derivatives of the height of the levels. -/
theorem C72_slopes {r ej ei : Nat} (hn : 1 ≤ g.n) (hz : 0 < g.nz) (hf : Represents g f r ej ei a) (ek : Nat) {k j i : Nat} (hk : k < g.n) (hj : j < g.n) (hi : i < g.n)
    {d : Nat} (hd : d < 3) :
    slope g f d r ek ej ei ((k * g.n + j) * g.n + i) = trueSlope g a r d (g.pts i) (g.pts j) (eta g ek (g.pts k)) := by
  have hlt : (g.n : WithBot Nat) < ((g.n + 2 : Nat) : WithBot Nat) := by exact_mod_cast (by omega : g.n < g.n + 2)
  obtain rfl | rfl | rfl : d = 0 ∨ d = 1 ∨ d = 2 := by omega
  · set η := eta g ek (g.pts k) with hη
    have key := (WxVerif.Props.Operators.C42_derivative_3d g.n g.pts hinj k j i hk hj hi (height g f r ek ej ei)
      (fun m => heightI g f r ek ej (if g.n * g.n ≤ m then ei + 1 else ei) (m % (g.n * g.n)))
      (C (1 - η) * lineX g.n a (g.pts j) + C (η * g.ztop)) ((lift_degree _ _ hn (lineX_degree _ _ _)).trans hlt)).1
      (by
        intro b hb
        rw [C72_height hf ek hj hb, eval_add, eval_mul, eval_C, eval_C, lineX_eval, level])
      (by
        have hm : k * g.n + j < g.n * g.n := by nlinarith
        beta_reduce
        rw [if_neg (by omega), Nat.mod_eq_of_lt hm, heightI, Nat.mul_add_mod', Nat.mod_eq_of_lt hj, hf.west j hj, div_of hj, stretch_level,
          eval_add, eval_mul, eval_C, eval_C, lineX_eval, level])
      (by
        have hm : k * g.n + j < g.n * g.n := by nlinarith
        beta_reduce
        rw [if_pos (by omega), Nat.add_mod_left, Nat.mod_eq_of_lt hm, heightI, Nat.mul_add_mod', Nat.mod_eq_of_lt hj, hf.east j hj, div_of hj, stretch_level,
          eval_add, eval_mul, eval_C, eval_C, lineX_eval, level])
    rw [EulerSphere.slope, if_pos rfl, key, trueSlope_zero, derivative_add, derivative_C, add_zero, derivative_C_mul, eval_mul, eval_C, lineX_deriv]
  · set η := eta g ek (g.pts k) with hη
    have key := (WxVerif.Props.Operators.C42_derivative_3d g.n g.pts hinj k j i hk hj hi (height g f r ek ej ei)
      (fun m => heightJ g f r ek (if g.n * g.n ≤ m then ej + 1 else ej) ei (m % (g.n * g.n)))
      (C (1 - η) * lineY g.n a (g.pts i) + C (η * g.ztop)) ((lift_degree _ _ hn (lineY_degree _ _ _)).trans hlt)).2.1
      (by
        intro b hb
        rw [C72_height hf ek hb hi, eval_add, eval_mul, eval_C, eval_C, lineY_eval, level])
      (by
        have hm : k * g.n + i < g.n * g.n := by nlinarith
        beta_reduce
        rw [if_neg (by omega), Nat.mod_eq_of_lt hm, heightJ, Nat.mul_add_mod', Nat.mod_eq_of_lt hi, hf.south i hi, div_of hi, stretch_level,
          eval_add, eval_mul, eval_C, eval_C, lineY_eval, level])
      (by
        have hm : k * g.n + i < g.n * g.n := by nlinarith
        beta_reduce
        rw [if_pos (by omega), Nat.add_mod_left, Nat.mod_eq_of_lt hm, heightJ, Nat.mul_add_mod', Nat.mod_eq_of_lt hi, hf.north i hi, div_of hi, stretch_level,
          eval_add, eval_mul, eval_C, eval_C, lineY_eval, level])
    rw [EulerSphere.slope, if_neg (by decide), if_pos rfl, key, trueSlope_one, derivative_add, derivative_C, add_zero, derivative_C_mul, eval_mul, eval_C, lineY_deriv]
  · rw [trueSlope_two, slope_eta_inj hinj hn hz r ek ej ei hk hj hi, hf.inside j hj i hi]

/-- the slopes of an element along a line in direction `x1`, as a polynomial -/
theorem slope_lineX (hn : 1 ≤ g.n) (r : Nat) {d : Nat} (hd : d < 3) (y η : ℝ) :
    ∃ p : ℝ[X], p.degree < (g.n : WithBot Nat) ∧ ∀ x, p.eval x = trueSlope g a r d x y η := by
  obtain rfl | rfl | rfl : d = 0 ∨ d = 1 ∨ d = 2 := by omega
  · refine ⟨C ((1 - η) * 2 / g.delta1 r) * lineX g.n (dxc g.n a) y + C 0, lift_degree _ _ hn (lineX_degree _ _ _), fun x => ?_⟩
    rw [trueSlope_zero, eval_add, eval_mul, eval_C, eval_C, lineX_eval]; ring
  · refine ⟨C ((1 - η) * 2 / g.delta2 r) * lineX g.n (dyc g.n a) y + C 0, lift_degree _ _ hn (lineX_degree _ _ _), fun x => ?_⟩
    rw [trueSlope_one, eval_add, eval_mul, eval_C, eval_C, lineX_eval]; ring
  · refine ⟨C (-1) * lineX g.n a y + C g.ztop, lift_degree _ _ hn (lineX_degree _ _ _), fun x => ?_⟩
    rw [trueSlope_two, eval_add, eval_mul, eval_C, eval_C, lineX_eval]; ring

/-- along `x2` -/
theorem slope_lineY (hn : 1 ≤ g.n) (r : Nat) {d : Nat} (hd : d < 3) (x η : ℝ) :
    ∃ p : ℝ[X], p.degree < (g.n : WithBot Nat) ∧ ∀ y, p.eval y = trueSlope g a r d x y η := by
  obtain rfl | rfl | rfl : d = 0 ∨ d = 1 ∨ d = 2 := by omega
  · refine ⟨C ((1 - η) * 2 / g.delta1 r) * lineY g.n (dxc g.n a) x + C 0, lift_degree _ _ hn (lineY_degree _ _ _), fun y => ?_⟩
    rw [trueSlope_zero, eval_add, eval_mul, eval_C, eval_C, lineY_eval]; ring
  · refine ⟨C ((1 - η) * 2 / g.delta2 r) * lineY g.n (dyc g.n a) x + C 0, lift_degree _ _ hn (lineY_degree _ _ _), fun y => ?_⟩
    rw [trueSlope_one, eval_add, eval_mul, eval_C, eval_C, lineY_eval]; ring
  · refine ⟨C (-1) * lineY g.n a x + C g.ztop, lift_degree _ _ hn (lineY_degree _ _ _), fun y => ?_⟩
    rw [trueSlope_two, eval_add, eval_mul, eval_C, eval_C, lineY_eval]; ring

/-- along the vertical -/
theorem slope_lineZ (hn : 1 ≤ g.n) (r ek : Nat) {d : Nat} (hd : d < 3) (x y : ℝ) :
    ∃ p : ℝ[X], p.degree < (g.n : WithBot Nat) ∧ ∀ s, p.eval s = trueSlope g a r d x y (eta g ek s) := by
  have lin : ∀ b : ℝ, (g.n = 1 → b = 0) → ∃ p : ℝ[X], p.degree < (g.n : WithBot Nat) ∧ ∀ s, p.eval s = (1 - eta g ek s) * b := by
    intro b hb
    by_cases h1 : g.n = 1
    · refine ⟨0, ?_, fun s => ?_⟩
      · rw [degree_zero]; exact WithBot.bot_lt_coe _
      · rw [hb h1]; simp
    · refine ⟨C (-(b * (deltaEta g / (1 - -1)))) * X + C (b * (1 - eta g ek 0)), ?_, fun s => ?_⟩
      · refine lift_degree _ _ hn ?_
        rw [degree_X]; exact_mod_cast (by omega : 1 < g.n)
      · simp only [eval_add, eval_mul, eval_C, eval_X, eta]; ring
  obtain rfl | rfl | rfl : d = 0 ∨ d = 1 ∨ d = 2 := by omega
  · obtain ⟨p, h1, h2⟩ := lin (biPoly g.n (dxc g.n a) x y * 2 / g.delta1 r) (by intro h; simp [biPoly, dxc, h])
    exact ⟨p, h1, fun s => by rw [h2, trueSlope_zero]; ring⟩
  · obtain ⟨p, h1, h2⟩ := lin (biPoly g.n (dyc g.n a) x y * 2 / g.delta2 r) (by intro h; simp [biPoly, dyc, h])
    exact ⟨p, h1, fun s => by rw [h2, trueSlope_one]; ring⟩
  · refine ⟨C (g.ztop - biPoly g.n a x y), lt_of_le_of_lt degree_C_le (by exact_mod_cast hn), fun s => ?_⟩
    rw [trueSlope_two, eval_C]

/-- reference coordinate of a side of an element -/
def side (s : Bool) : ℝ := if s then 1 else -1

include hinj in
/-- **C72 (sides).**  The slopes extrapolated to the west/east, south/north and bottom/top sides of an element are the derivatives of the
height of the levels there. -/
theorem C72_sides {r ej ei : Nat} (hn : 1 ≤ g.n) (hz : 0 < g.nz) (hf : Represents g f r ej ei a) (ek : Nat) {d : Nat} (hd : d < 3) (s : Bool)
    {k l : Nat} (hk : k < g.n) (hl : l < g.n) :
    toI g (EulerSphere.slope g f d r ek ej ei) (node (g.n * g.n) s (k * g.n + l)) =
      trueSlope g a r d (side s) (g.pts l) (eta g ek (g.pts k)) ∧
    toJ g (EulerSphere.slope g f d r ek ej ei) (node (g.n * g.n) s (k * g.n + l)) =
      trueSlope g a r d (g.pts l) (side s) (eta g ek (g.pts k)) ∧
    toK g (EulerSphere.slope g f d r ek ej ei) (node (g.n * g.n) s (k * g.n + l)) =
      trueSlope g a r d (g.pts l) (g.pts k) (eta g ek (side s)) := by
  have hp := pts_inj hinj
  obtain ⟨px, hx, ex⟩ := slope_lineX (g := g) (a := a) hn r hd (g.pts l) (eta g ek (g.pts k))
  obtain ⟨py, hy, ey⟩ := slope_lineY (g := g) (a := a) hn r hd (g.pts l) (eta g ek (g.pts k))
  obtain ⟨pz, hz', ez⟩ := slope_lineZ (g := g) (a := a) hn r ek hd (g.pts l) (g.pts k)
  have kx := (WxVerif.Props.Operators.C42_extrap_3d g.n g.pts hp (EulerSphere.slope g f d r ek ej ei) k l hk hl px hx).1
    (fun b hb => by rw [C72_slopes hinj hn hz hf ek hk hl hb hd, ex])
  have ky := (WxVerif.Props.Operators.C42_extrap_3d g.n g.pts hp (EulerSphere.slope g f d r ek ej ei) k l hk hl py hy).2.1
    (fun b hb => by rw [C72_slopes hinj hn hz hf ek hk hb hl hd, ey])
  have kz := (WxVerif.Props.Operators.C42_extrap_3d g.n g.pts hp (EulerSphere.slope g f d r ek ej ei) k l hk hl pz hz').2.2
    (fun b hb => by rw [C72_slopes hinj hn hz hf ek hb hk hl hd, ez])
  rw [ex, ex] at kx
  rw [ey, ey] at ky
  rw [ez, ez] at kz
  cases s
  · exact ⟨kx.1, ky.1, kz.1⟩
  · exact ⟨kx.2, ky.2, kz.2⟩

theorem eta_sides (hz : 0 < g.nz) (e : Nat) : eta g e (side false) = etaItf g e ∧ eta g e (side true) = etaItf g (e + 1) := by
  have : (g.nz : ℝ) ≠ 0 := by exact_mod_cast hz.ne'
  unfold eta etaItf deltaEta side
  constructor
  · simp
  · push_cast; simp; field_simp

include hinj in
/-- **C72 (levels).**  On every interface between levels, the floor and the top included, the slopes are the derivatives of the height. -/
theorem C72_levels {r ej ei : Nat} (hn : 1 ≤ g.n) (hz : 0 < g.nz) (hf : Represents g f r ej ei a) {e : Nat} (he : e ≤ g.nz) {d : Nat} (hd : d < 3)
    {j i : Nat} (hj : j < g.n) (hi : i < g.n) :
    slopeK g f d r e ej ei (j * g.n + i) = trueSlope g a r d (g.pts i) (g.pts j) (etaItf g e) := by
  unfold slopeK
  by_cases h0 : e = 0
  · subst h0
    rw [if_pos rfl, (C72_sides hinj hn hz hf 0 hd false hj hi).2.2, (eta_sides hz 0).1]
  · rw [if_neg h0]
    obtain ⟨e, rfl⟩ : ∃ e', e = e' + 1 := ⟨e - 1, by omega⟩
    by_cases h1 : e + 1 = g.nz
    · rw [if_pos h1, (C72_sides hinj hn hz hf _ hd true hj hi).2.2, (eta_sides hz _).2, show g.nz - 1 + 1 = e + 1 by omega]
    · rw [if_neg h1, (C72_sides hinj hn hz hf _ hd true hj hi).2.2, (C72_sides hinj hn hz hf _ hd false hj hi).2.2, (eta_sides hz _).1,
        (eta_sides hz _).2, Nat.add_sub_cancel]
      ring

include hinj in
/-- **C72 (metric).**  The data from which the metric of a solution point is computed: the distance to the centre (deep atmosphere) or the radius
of the sphere (shallow), the gnomonic coordinates, and the derivatives of the height of the levels. -/
theorem C72_metric_point {r ej ei : Nat} (hn : 1 ≤ g.n) (hz : 0 < g.nz) (hf : Represents g f r ej ei a) (ek : Nat) {k j i : Nat} (hk : k < g.n) (hj : j < g.n) (hi : i < g.n) :
    pt g f r ek ej ei ((k * g.n + j) * g.n + i) =
      ⟨if g.deep then g.radius + level g a (g.pts i) (g.pts j) (eta g ek (g.pts k)) else g.radius,
        Real.tan (g.x1 r (ei * g.n + i)), Real.tan (g.x2 r (ej * g.n + j)),
        trueSlope g a r 0 (g.pts i) (g.pts j) (eta g ek (g.pts k)), trueSlope g a r 1 (g.pts i) (g.pts j) (eta g ek (g.pts k)),
        trueSlope g a r 2 (g.pts i) (g.pts j) (eta g ek (g.pts k)), g.delta1 r, g.delta2 r, 1 / g.nz⟩ := by
  unfold pt
  rw [C72_slopes hinj hn hz hf ek hk hj hi (by decide : 0 < 3), C72_slopes hinj hn hz hf ek hk hj hi (by decide : 1 < 3),
    C72_slopes hinj hn hz hf ek hk hj hi (by decide : 2 < 3), C72_height hf ek hj hi, (index3 (k := k) hj hi).1]
  simp only [Grid.solXY, Nat.mul_add_mod', Nat.mod_eq_of_lt hi, div_of hi, radiusAt, deltaEta, sub_zero, add_comm (level _ _ _ _ _)]

/-! ## Interfaces between columns -/

theorem ent2_mul (A B : Matrix (Fin 2) (Fin 2) ℝ) (u : Nat → ℝ) {d : Nat} (hd : d < 2) :
    ent2 A d 0 * (ent2 B 0 0 * u 0 + ent2 B 0 1 * u 1) + ent2 A d 1 * (ent2 B 1 0 * u 0 + ent2 B 1 1 * u 1) =
      ent2 (A * B) d 0 * u 0 + ent2 (A * B) d 1 * u 1 := by
  obtain rfl | rfl : d = 0 ∨ d = 1 := by omega
  all_goals simp [ent2, Matrix.mul_apply, Fin.sum_univ_two]; ring

/-- mean of the slopes extrapolated from the two sides of interface `e` of row `ej` -/
noncomputable def meanI (g : Atm) (f : Floor) (d r ek ej e m : Nat) : ℝ :=
  (toI g (EulerSphere.slope g f d r ek ej (e - 1)) (node (g.n * g.n) true m) + toI g (EulerSphere.slope g f d r ek ej e) (node (g.n * g.n) false m)) / 2

/-- mean on interface `e` of column `ei` -/
noncomputable def meanJ (g : Atm) (f : Floor) (d r ek e ei m : Nat) : ℝ :=
  (toJ g (EulerSphere.slope g f d r ek (e - 1) ei) (node (g.n * g.n) true m) + toJ g (EulerSphere.slope g f d r ek e ei) (node (g.n * g.n) false m)) / 2

/-- **C72 (interfaces).**  On an interface between two columns of a tile the vertical slope is the mean of the two sides; the horizontal slopes
are the mean multiplied by the product of the two auxiliary metric matrices at the point. -/
theorem C72_interface {r ek ej e m : Nat} (he : 1 ≤ e) (heN : e < g.N) :
    slopeI g f 2 r ek ej e m = meanI g f 2 r ek ej e m ∧
    (∀ d < 2, slopeI g f d r ek ej e m =
      ent2 (auxCov (g.itfXY1 r ej e true (m % g.n)).1 (g.itfXY1 r ej e true (m % g.n)).2 *
        auxContra (g.itfXY1 r ej e true (m % g.n)).1 (g.itfXY1 r ej e true (m % g.n)).2) d 0 * meanI g f 0 r ek ej e m +
      ent2 (auxCov (g.itfXY1 r ej e true (m % g.n)).1 (g.itfXY1 r ej e true (m % g.n)).2 *
        auxContra (g.itfXY1 r ej e true (m % g.n)).1 (g.itfXY1 r ej e true (m % g.n)).2) d 1 * meanI g f 1 r ek ej e m) ∧
    slopeJ g f 2 r ek e ej m = meanJ g f 2 r ek e ej m ∧
    (∀ d < 2, slopeJ g f d r ek e ej m =
      ent2 (auxCov (g.itfXY2 r e ej true (m % g.n)).1 (g.itfXY2 r e ej true (m % g.n)).2 *
        auxContra (g.itfXY2 r e ej true (m % g.n)).1 (g.itfXY2 r e ej true (m % g.n)).2) d 0 * meanJ g f 0 r ek e ej m +
      ent2 (auxCov (g.itfXY2 r e ej true (m % g.n)).1 (g.itfXY2 r e ej true (m % g.n)).2 *
        auxContra (g.itfXY2 r e ej true (m % g.n)).1 (g.itfXY2 r e ej true (m % g.n)).2) d 1 * meanJ g f 1 r ek e ej m) := by
  obtain ⟨e, rfl⟩ : ∃ e', e = e' + 1 := ⟨e - 1, by omega⟩
  have h1 : 1 ≤ e + 1 ∧ e + 1 ≤ g.N := by omega
  have h2 : 1 ≤ e + 1 + 1 ∧ e + 1 + 1 ≤ g.N := by omega
  have i1 : ∀ l, g.itfXY1 r ej (e + 1 + 1) false l = g.itfXY1 r ej (e + 1) true l := fun _ => rfl
  have i2 : ∀ l, g.itfXY2 r (e + 1 + 1) ej false l = g.itfXY2 r (e + 1) ej true l := fun _ => rfl
  refine ⟨?_, fun d hd => ?_, ?_, fun d hd => ?_⟩
  · simp only [slopeI, exI, if_pos h1, if_pos h2, exOwnI, meanI, if_true, Nat.add_sub_cancel]; ring
  · rw [← ent2_mul _ _ (fun d => meanI g f d r ek ej (e + 1) m) hd]
    have hd2 : d ≠ 2 := by omega
    simp only [slopeI, exI, if_pos h1, if_pos h2, exOwnI, meanI, if_neg hd2, Nat.add_sub_cancel, i1, show (0 : Nat) ≠ 2 by decide,
      show (1 : Nat) ≠ 2 by decide, if_false]
    ring
  · simp only [slopeJ, exJ, if_pos h1, if_pos h2, exOwnJ, meanJ, if_true, Nat.add_sub_cancel]; ring
  · rw [← ent2_mul _ _ (fun d => meanJ g f d r ek (e + 1) ej m) hd]
    have hd2 : d ≠ 2 := by omega
    simp only [slopeJ, exJ, if_pos h1, if_pos h2, exOwnJ, meanJ, if_neg hd2, Nat.add_sub_cancel, i2, show (0 : Nat) ≠ 2 by decide,
      show (1 : Nat) ≠ 2 by decide, if_false]
    ring

include hinj in
/-- The mean over an interface of a terrain with continuous slopes is the slope. -/
theorem mean_exact {r ej e : Nat} {b : Nat → Nat → ℝ} (hn : 1 ≤ g.n) (hz : 0 < g.nz) (hl : Represents g f r ej (e - 1) a) (he : 1 ≤ e)
    (hr : Represents g f r ej e b) (ek : Nat) {k l : Nat} (hk : k < g.n) (hlt : l < g.n) {d : Nat} (hd : d < 3)
    (hc : trueSlope g a r d 1 (g.pts l) (eta g ek (g.pts k)) = trueSlope g b r d (-1) (g.pts l) (eta g ek (g.pts k))) :
    meanI g f d r ek ej e (k * g.n + l) = trueSlope g b r d (-1) (g.pts l) (eta g ek (g.pts k)) := by
  unfold meanI
  rw [(C72_sides hinj hn hz hl ek hd true hk hlt).1, (C72_sides hinj hn hz hr ek hd false hk hlt).1]
  simp only [side, if_true, Bool.false_eq_true, if_false]
  rw [hc]; ring

include hinj in
/-- **C72, proved part on the interfaces.**  Where `X Y = 0` (the two lines through the centre of the panel) or `(X Y)² = 1` (its corners), the
slopes on the interface of a terrain with continuous slopes are its derivatives. -/
theorem C72_interface_partial {r ej e : Nat} {b : Nat → Nat → ℝ} (hn : 1 ≤ g.n) (hz : 0 < g.nz) (he : 1 ≤ e) (heN : e < g.N)
    (hl : Represents g f r ej (e - 1) a) (hr : Represents g f r ej e b) (ek : Nat) {k l : Nat} (hk : k < g.n) (hlt : l < g.n)
    (hc : ∀ d < 3, trueSlope g a r d 1 (g.pts l) (eta g ek (g.pts k)) = trueSlope g b r d (-1) (g.pts l) (eta g ek (g.pts k)))
    (hXY : Real.tan (g.x1itf r e) * Real.tan (g.x2 r (ej * g.n + l)) = 0 ∨
      (Real.tan (g.x1itf r e) * Real.tan (g.x2 r (ej * g.n + l))) ^ 2 = 1) {d : Nat} (hd : d < 3) :
    slopeI g f d r ek ej e (k * g.n + l) = trueSlope g b r d (-1) (g.pts l) (eta g ek (g.pts k)) := by
  obtain ⟨h2, h01, -, -⟩ := C72_interface (g := g) (f := f) (r := r) (ek := ek) (ej := ej) (m := k * g.n + l) he heN
  have hm : (k * g.n + l) % g.n = l := by rw [Nat.mul_add_mod', Nat.mod_eq_of_lt hlt]
  rw [hm] at h01
  have hM : auxCov (g.itfXY1 r ej e true l).1 (g.itfXY1 r ej e true l).2 * auxContra (g.itfXY1 r ej e true l).1 (g.itfXY1 r ej e true l).2 = 1 :=
    WxVerif.Props.Metric3D.C36_auxiliary_partial hXY
  rw [hM] at h01
  have e0 := mean_exact hinj hn hz hl he hr ek hk hlt (by decide : 0 < 3) (hc 0 (by decide))
  have e1 := mean_exact hinj hn hz hl he hr ek hk hlt (by decide : 1 < 3) (hc 1 (by decide))
  have e2 := mean_exact hinj hn hz hl he hr ek hk hlt (by decide : 2 < 3) (hc 2 (by decide))
  obtain rfl | rfl | rfl : d = 0 ∨ d = 1 ∨ d = 2 := by omega
  · rw [h01 0 (by decide), e0]; simp [ent2]
  · rw [h01 1 (by decide), e1]; simp [ent2]
  · rw [h2, e2]

include hinj in
/-- **C72, violated clause.**  Everywhere else the slopes on the interface are wrong: a ridge along `x2` (its slope along `x2` is zero) gets a
slope along `x2`. -/
theorem C72_interface_fails {r ej e : Nat} {b : Nat → Nat → ℝ} (hn : 1 ≤ g.n) (hz : 0 < g.nz) (he : 1 ≤ e) (heN : e < g.N)
    (hl : Represents g f r ej (e - 1) a) (hr : Represents g f r ej e b) (ek : Nat) {k l : Nat} (hk : k < g.n) (hlt : l < g.n)
    (hc : ∀ d < 3, trueSlope g a r d 1 (g.pts l) (eta g ek (g.pts k)) = trueSlope g b r d (-1) (g.pts l) (eta g ek (g.pts k)))
    (h0 : trueSlope g b r 0 (-1) (g.pts l) (eta g ek (g.pts k)) ≠ 0) (h1 : trueSlope g b r 1 (-1) (g.pts l) (eta g ek (g.pts k)) = 0)
    (hXY : Real.tan (g.x1itf r e) * Real.tan (g.x2 r (ej * g.n + l)) ≠ 0)
    (hXY1 : (Real.tan (g.x1itf r e) * Real.tan (g.x2 r (ej * g.n + l))) ^ 2 ≠ 1) :
    slopeI g f 1 r ek ej e (k * g.n + l) ≠ trueSlope g b r 1 (-1) (g.pts l) (eta g ek (g.pts k)) := by
  obtain ⟨-, h01, -, -⟩ := C72_interface (g := g) (f := f) (r := r) (ek := ek) (ej := ej) (m := k * g.n + l) he heN
  have hm : (k * g.n + l) % g.n = l := by rw [Nat.mul_add_mod', Nat.mod_eq_of_lt hlt]
  rw [hm] at h01
  have e0 := mean_exact hinj hn hz hl he hr ek hk hlt (by decide : 0 < 3) (hc 0 (by decide))
  have e1 := mean_exact hinj hn hz hl he hr ek hk hlt (by decide : 1 < 3) (hc 1 (by decide))
  rw [h01 1 (by decide), e0, e1, h1, mul_zero, add_zero]
  refine mul_ne_zero ?_ h0
  change ent2 (auxCov (Real.tan (g.x1itf r e)) (Real.tan (g.x2 r (ej * g.n + l))) *
    auxContra (Real.tan (g.x1itf r e)) (Real.tan (g.x2 r (ej * g.n + l)))) 1 0 ≠ 0
  generalize Real.tan (g.x1itf r e) = X at hXY hXY1 ⊢
  generalize Real.tan (g.x2 r (ej * g.n + l)) = Y at hXY hXY1 ⊢
  intro h10
  have hd := WxVerif.Sphere.delta2_pos X Y
  have hX : (0:ℝ) < 1 + X ^ 2 := by positivity
  have hY : (0:ℝ) < 1 + Y ^ 2 := by positivity
  have hs : (0:ℝ) < 1 + X ^ 2 + (1 + Y ^ 2) := by positivity
  simp [ent2, auxCov, auxContra, Matrix.mul_apply, Fin.sum_univ_two] at h10
  field_simp at h10
  have h3 : X * Y * (1 + Y ^ 2) * ((X * Y) ^ 2 - 1) = 0 := by linear_combination h10
  have h4 : X * Y * (1 + Y ^ 2) = 0 := (mul_eq_zero.mp h3).resolve_right (sub_ne_zero.mpr hXY1)
  exact hXY ((mul_eq_zero.mp h4).resolve_right hY.ne')

end Exact

/-! ## A concrete case -/

/-- six tiles of three by three elements with two points per direction, four levels -/
noncomputable def sample : Atm :=
  { k := 1, N := 3, n := 2, pts := fun i => if i = 0 then -1 / 2 else 1 / 2, radius := 6371220, rotation := 0, orient := fun _ => ⟨0, 0, 0⟩, nz := 4,
    ztop := 10000, deep := false, caseNumber := 20 }

/-- a slope that rises along `x1`: 2 m per element -/
noncomputable def ridge : Floor := ⟨fun _ _ ei c => 2 * ei + sample.pts (c % 2), fun _ _ e _ => 2 * e - 1, fun _ _ ei l => 2 * ei + sample.pts l⟩

/-- its coefficients in column `ei` -/
def ridgeCoef (ei : Nat) (i j : Nat) : ℝ := if j = 0 then (if i = 0 then 2 * ei else 1) else 0

theorem ridge_biPoly (ei : Nat) (x y : ℝ) : biPoly 2 (ridgeCoef ei) x y = 2 * ei + x := by
  simp [biPoly, ridgeCoef, Finset.sum_range_succ]

theorem ridge_represents (ej ei : Nat) : Represents sample ridge 0 ej ei (ridgeCoef ei) := by
  constructor
  · intro j hj i hi
    have hi' : i < 2 := hi
    change 2 * (ei : ℝ) + sample.pts ((j * 2 + i) % 2) = biPoly 2 (ridgeCoef ei) (sample.pts i) (sample.pts j)
    rw [ridge_biPoly, Nat.mul_add_mod', Nat.mod_eq_of_lt hi']
  · intro l hl
    change 2 * (ei : ℝ) - 1 = biPoly 2 (ridgeCoef ei) (-1) (sample.pts l)
    rw [ridge_biPoly]; ring
  · intro l hl
    change 2 * ((ei + 1 : Nat) : ℝ) - 1 = biPoly 2 (ridgeCoef ei) 1 (sample.pts l)
    rw [ridge_biPoly]; push_cast; ring
  · intro l hl
    change 2 * (ei : ℝ) + sample.pts l = biPoly 2 (ridgeCoef ei) (sample.pts l) (-1)
    rw [ridge_biPoly]
  · intro l hl
    change 2 * (ei : ℝ) + sample.pts l = biPoly 2 (ridgeCoef ei) (sample.pts l) 1
    rw [ridge_biPoly]

theorem sample_inj : Set.InjOn (extension sample.n sample.pts) (Finset.range (sample.n + 2)) := by
  intro x hx y hy hxy
  have hx' : x < 4 := Finset.mem_range.1 (Finset.mem_coe.1 hx)
  have hy' : y < 4 := Finset.mem_range.1 (Finset.mem_coe.1 hy)
  have e : ∀ z, z < 4 → extension sample.n sample.pts z = if z = 0 then -1 else if z = 1 then -1 / 2 else if z = 2 then 1 / 2 else 1 := by
    intro z hz
    interval_cases z <;> simp [extension, sample]
  rw [e x hx', e y hy'] at hxy
  interval_cases x <;> interval_cases y <;> first | rfl | (exfalso; norm_num at hxy)

theorem tan_between {θ : ℝ} (h1 : -(Real.pi / 4) < θ) (h2 : θ < 0) : -1 < Real.tan θ ∧ Real.tan θ < 0 := by
  have hpi := Real.pi_pos
  constructor
  · have := Real.tan_lt_tan_of_lt_of_lt_pi_div_two (x := -(Real.pi / 4)) (y := θ) (by linarith) (by linarith) h1
    rwa [Real.tan_neg, Real.tan_pi_div_four] at this
  · exact Real.tan_neg_of_neg_of_pi_div_two_lt h2 (by linarith)

/-- **C72, violated clause, on a concrete grid.**  Six tiles of 3 × 3 × 4 elements with two points per direction, floor rising along `x1` only:
the metric on the first interface between columns has a slope along `x2`, which is zero in reality. -/
theorem C72_ridge_fails : trueSlope sample (ridgeCoef 1) 0 1 (-1) (sample.pts 0) (eta sample 0 (sample.pts 0)) = 0 ∧
    slopeI sample ridge 1 0 0 0 1 0 ≠ 0 := by
  have hpi := Real.pi_pos
  have hs : sample.start1 0 = -(Real.pi / 4) ∧ sample.start2 0 = -(Real.pi / 4) := by
    have c0 : myCol sample.size 0 = 0 := by change myCol 6 0 = 0; decide +kernel
    have r0 : myRow sample.size 0 = 0 := by change myRow 6 0 = 0; decide +kernel
    rw [Grid.start1, Grid.start2, c0, r0]
    constructor <;> simp <;> ring
  have hp : sample.deltaPanel = Real.pi / 2 := by simp [Grid.deltaPanel, sample]; ring
  have hx : sample.x1itf 0 1 = -(Real.pi / 12) := by
    rw [Grid.x1itf, Grid.linspace, hs.1, hp]
    simp [sample]; ring
  have hy : sample.x2 0 (0 * sample.n + 0) = -(5 * Real.pi / 24) := by
    rw [Grid.x2, Grid.delta2, elementCoord, hs.2, hp]
    simp [sample]; ring
  have hd : sample.delta1 0 = Real.pi / 6 := by
    rw [Grid.delta1, hp]; simp [sample]; ring
  obtain ⟨x1, x2⟩ := tan_between (θ := -(Real.pi / 12)) (by linarith) (by linarith)
  obtain ⟨y1, y2⟩ := tan_between (θ := -(5 * Real.pi / 24)) (by linarith) (by linarith)
  have hη : eta sample 0 (sample.pts 0) = 1 / 16 := by simp [eta, deltaEta, sample]; norm_num
  have t0 : ∀ ei x y η, trueSlope sample (ridgeCoef ei) 0 0 x y η = (1 - η) * 1 * 2 / (Real.pi / 6) := by
    intro ei x y η
    rw [trueSlope_zero, hd]
    congr 3
    change biPoly 2 (dxc 2 (ridgeCoef ei)) x y = 1
    simp [biPoly, dxc, ridgeCoef, Finset.sum_range_succ]
  have t1 : ∀ ei x y η, trueSlope sample (ridgeCoef ei) 0 1 x y η = 0 := by
    intro ei x y η
    rw [trueSlope_one]
    have : biPoly sample.n (dyc sample.n (ridgeCoef ei)) x y = 0 := by
      change biPoly 2 (dyc 2 (ridgeCoef ei)) x y = 0
      simp [biPoly, dyc, ridgeCoef, Finset.sum_range_succ]
    rw [this]; simp
  have t2 : ∀ ei x y η, trueSlope sample (ridgeCoef ei) 0 2 x y η = 10000 - (2 * ei + x) := by
    intro ei x y η
    rw [trueSlope_two]
    change 10000 - biPoly 2 (ridgeCoef ei) x y = _
    rw [ridge_biPoly]
  refine ⟨t1 _ _ _ _, ?_⟩
  have key := C72_interface_fails (g := sample) (f := ridge) (r := 0) (ej := 0) (e := 1) (a := ridgeCoef 0) (b := ridgeCoef 1) sample_inj
    (by decide) (by decide) (by decide) (by decide) (ridge_represents 0 0) (ridge_represents 0 1) 0 (k := 0) (l := 0) (by decide) (by decide)
    (by
      intro d hd
      obtain rfl | rfl | rfl : d = 0 ∨ d = 1 ∨ d = 2 := by omega
      · rw [t0, t0]
      · rw [t1, t1]
      · rw [t2, t2]; push_cast; ring)
    (by rw [t0, hη]; positivity) (t1 _ _ _ _)
    (by rw [hx, hy]; exact mul_ne_zero x2.ne y2.ne)
    (by
      rw [hx, hy]
      apply ne_of_lt
      have h1 : 0 < Real.tan (-(Real.pi / 12)) * Real.tan (-(5 * Real.pi / 24)) := mul_pos_of_neg_of_neg x2 y2
      have h2 : Real.tan (-(Real.pi / 12)) * Real.tan (-(5 * Real.pi / 24)) < 1 := by nlinarith
      nlinarith)
  rw [t1] at key
  exact key

/-! ## What a tile receives from its neighbours, and the forcing -/

variable {Q : Field3}

/-- **C72 (halo).**  What tile `pl` reads beyond its side `d` are the values of the facing point of the neighbour: density and potential
temperature as they are, the two horizontal momenta converted to the local basis, and the vertical momentum as it is. -/
theorem C72_halo (hk : 0 < g.k) (hN : 0 < g.N) (hn : 0 < g.n) (hsym : ∀ i < g.n, g.pts (g.n - 1 - i) = -g.pts i)
    (ek a : Nat) {pl : Place} (h : Valid g.k pl) (d : Side) {i : Nat} (hi : i < g.N * g.n) :
    let nb := enc g.k (nbrPlace g.k pl d)
    let there := sent g Q ek a nb (backSide g.k pl d)
    let i' := mirrored (backFlip g.k pl d) (g.N * g.n) i
    let c := convertContra (6 * (g.k * g.k)) nb (backSide g.k pl d) (there 1 i') (there 2 i')
      (alongSide (Grid.coords hk hN hn hsym) (nbrPlace g.k pl d) (backSide g.k pl d) i')
    let here := fun v => received g Q ek a (enc g.k pl) d v i
    here 0 = there 0 i' ∧ here 1 = c.1 ∧ here 2 = c.2 ∧ here 3 = there 3 i' ∧ here 4 = there 4 i' := by
  have e := exchangedVec_eq hk hN hn hsym (fun s d' i => (sent g Q ek a s d' 1 i, sent g Q ek a s d' 2 i, sent g Q ek a s d' 3 i)) h d hi
  refine ⟨received_scalar ek a (Or.inl rfl) h d hi, ?_, ?_, ?_, received_scalar ek a (Or.inr rfl) h d hi⟩ <;>
  · unfold received
    simp only [e]
    rfl

/-- the position of the pair `(a, b)` in the table of symmetric symbols: 00, 01, 02, 11, 12, 22 -/
def pair (a b : Fin 3) : Nat := if a.val = 0 then b.val else if b.val = 0 then a.val else a.val + b.val + 1

/-- **C72 (forcing).**  The metric part of the forcing of each momentum is the sum over all nine pairs of directions of symbol times momentum
flux, plus twice the sum of the three rotation symbols times momentum: no pair is missing, doubled or taken twice. -/
theorem C72_metric_forcing (ρ u1 u2 w p : ℝ) (c : Nat → ℝ) (h : Nat → Nat → ℝ) (hs : ∀ a b : Fin 3, h a b = h b a) :
    forcing1 ρ u1 u2 w p c h =
      2 * ∑ a : Fin 3, c a * (ρ * ![u1, u2, w] a) +
        ∑ a : Fin 3, ∑ b : Fin 3, c (3 + pair a b) * (ρ * ![u1, u2, w] a * ![u1, u2, w] b + h a b * p) := by
  have h01 := hs 0 1
  have h02 := hs 0 2
  have h12 := hs 1 2
  simp only [Fin.sum_univ_three, forcing1, pair]
  simp only [Fin.isValue, Matrix.cons_val_zero, Matrix.cons_val_one, Matrix.cons_val] at *
  norm_num at *
  rw [← h01, ← h02, ← h12]
  ring

/-- **C72 (advection cases).**  In the cases with a prescribed wind (11 and 12) the tendency of density, momenta and potential temperature is
zero; in all the other cases that the program initializes it is the one of the Euler equations. -/
theorem C72_prescribed_wind (F : ForcingData) (r ek ej ei c : Nat) {v : Nat} (hv : v ≤ 4) :
    (g.caseNumber = 11 ∨ g.caseNumber = 12 → rhs g f Q F r ek ej ei v c = 0) ∧
    (g.caseNumber ∈ [20, 21, 22, 31, 77] →
      rhs g f Q F r ek ej ei v c = divergence g f Q r ek ej ei v c - forcing g f Q F r ek ej ei v c) := by
  constructor
  · intro h
    have : advectionOnly g = true := by
      rw [advectionOnly, decide_eq_true_eq]; omega
    rw [rhs, if_pos ⟨this, hv⟩]
  · intro h
    have : ¬ advectionOnly g = true := by
      rw [advectionOnly, decide_eq_true_eq]
      simp at h
      omega
    rw [rhs, if_neg (fun h => this h.1)]

/-- The hypotheses of `C72_metric_forcing` hold for the metric of every point. -/
example (p : Point3) : ∀ a b : Fin 3, ent3 (Hcontra3 p) a b = ent3 (Hcontra3 p) b a := fun a b => WxVerif.Props.RestState.ent3_symm p a b

end WxVerif.Props.Slopes
