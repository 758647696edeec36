import Verif.Props.BlockStats
import Verif.Props.Operators

/-!
# C85: which numbers are printed; C61: the slopes of the mountain
-/

namespace WxVerif.Props.BlockNumbers

open WxVerif.BlockStats WxVerif.Spec.BlockStats WxVerif.ShallowWater WxVerif.Topology WxVerif.Sphere WxVerif.Geom WxVerif.Flux
open WxVerif.Props.BlockStats
open WxVerif.Cube (V3)
open Real (pi cos tan)
open Polynomial (derivative)

variable {g : Grid}

/-- relative difference -/
noncomputable def relative (now first : ℝ) : ℝ := (now - first) / first

/-- **C85** the three numbers of a block are, in this order, those of mass, energy and enstrophy: the integrals printed for the first state are half
the quadratures of its depth, energy and enstrophy (see `C85_integral_fails` for the factor), and the normalized differences printed in every block
are the relative changes of the quadratures of depth, energy and enstrophy since the first state, to which the factor does no harm. -/
theorem C85_numbers (hR : g.radius ≠ 0) (hx : ∀ l < g.n, |g.pts l| ≤ 1) {a : Nat → Nat → Nat → Nat → ℝ} (ha : AreaElements g a) (s : Setup)
    (hc : 2 ≤ s.caseNumber) (x : Field × Nat) (xs : List (Field × Nat)) :
    (reports g s none (x :: xs)).map Report.initial =
      some (quadrature g s.w a (fun r ej ei c => x.1 r ej ei 0 c) / 2, quadrature g s.w a (energy g s x.1) / 2,
        quadrature g s.w a (enstrophy g x.1) / 2) :: xs.map (fun _ => none) ∧
    (reports g s none (x :: xs)).map Report.drift = (x :: xs).map fun y => some
      (relative (quadrature g s.w a (fun r ej ei c => y.1 r ej ei 0 c)) (quadrature g s.w a (fun r ej ei c => x.1 r ej ei 0 c)),
        relative (quadrature g s.w a (energy g s y.1)) (quadrature g s.w a (energy g s x.1)),
        relative (quadrature g s.w a (enstrophy g y.1)) (quadrature g s.w a (enstrophy g x.1))) := by
  have q : ∀ f : Scalar, globalIntegral g s.w f = quadrature g s.w a f / 2 := fun f => (C85_integral_fails hR hx ha s.w f).1
  have n : ∀ p q : ℝ, normalized (p / 2) (q / 2) = relative p q := by
    intro p q
    unfold normalized relative
    rw [← sub_div, div_div_div_cancel_right₀ two_ne_zero]
  obtain ⟨h1, h2⟩ := C85_reference (g := g) s hc x xs
  have d : ∀ Q : Field, depth Q = fun r ej ei c => Q r ej ei 0 c := fun Q => rfl
  constructor
  · rw [h1]
    simp only [integrals, q, d]
  · rw [h2]
    simp only [driftFrom, integrals, q, n, d]

/-- **C85** the metric with which the vorticity of the enstrophy is computed, at a solution point: the covariant metric is that of the tangent vectors,
the factor in front of the curl is two divided by the area element (one would be right), and the Coriolis parameter is twice the rotation
speed times the sine of the latitude. -/
theorem C85_metric (hR : g.radius ≠ 0) {r ej ei j i : Nat} (hr : r < 6 * (g.k * g.k)) (hej : ej < g.N) (hei : ei < g.N) (hj : j < g.n) (hi : i < g.n)
    (hx : ∀ l < g.n, |g.pts l| ≤ 1) {t : Fin 2 → V3 ℝ} (ht : IsTangentBasis (elementPoint g r ej ei) (g.pts i) (g.pts j) t) {a : ℝ}
    (ha : IsAreaElement (elementPoint g r ej ei) (g.pts i) (g.pts j) a) :
    (∀ p q : Fin 2, (elementMetric g r ej ei).Hcov p q (j * g.n + i) = dot (t p) (t q)) ∧
    (elementMetric g r ej ei).invSqrtG (j * g.n + i) = 2 / a ∧
    (elementMetric g r ej ei).coriolis (j * g.n + i) = 2 * g.rotation * ((elementPoint g r ej ei (g.pts i) (g.pts j)).2.2 / g.radius) := by
  obtain ⟨c1, c2⟩ := element_cos hr hej hei (hx i hi) (hx j hj)
  obtain ⟨t', ht', hm⟩ := Metric2D.C35_scaled_induced (g.orient (myPanel g.size r)) g.radius (g.start1 r) (g.start2 r) (g.delta1 r) (g.delta2 r) ei ej c1 c2
  have e0 : t 0 = t' 0 := ht.1.unique ht'.1
  have e1 : t 1 = t' 1 := ht.2.unique ht'.2
  have e : ∀ p, t p = t' p := fun p => by fin_cases p <;> assumption
  have hs := sqrtG_pos hR hr (by omega : 0 < g.N) (g.solXY r ej ei (j * g.n + i))
  refine ⟨fun p q => ?_, ?_, ?_⟩
  · rw [e p, e q, ← hm p q]
    show Grid.toArr (hcov g r ej ei (j * g.n + i)) p q = _
    unfold hcov
    rw [solXY_eq r ej ei hi hj]
    fin_cases p <;> fin_cases q <;> rfl
  · rw [area_eq hR hr hej hei hj hi hx ha]
    show 1 / g.sqrtG r (g.solXY r ej ei (j * g.n + i)) = _
    field_simp
  · show coriolisF _ _ _ _ = _
    rw [solXY_eq r ej ei hi hj, Metric2D.C38_coriolis_parameter _ _ hR]
    rfl

/-! ## The slopes of the mountain of case 5 -/

/-- height of the mountain at the point of element `(ej, ei)` of process `r` with reference coordinates `ξ₁, ξ₂` -/
noncomputable def mountain (g : Grid) (r ej ei : Nat) (ξ1 ξ2 : ℝ) : ℝ :=
  let o := g.orient (myPanel g.size r)
  let X := tan (elementCoord (g.start1 r) (g.delta1 r) ei ξ1)
  let Y := tan (elementCoord (g.start2 r) (g.delta2 r) ej ξ2)
  InitShallow.hsurf5 (pointLon o g.radius X Y) (pointLat o g.radius X Y)

/-- **C61** (case 5) the slopes of the mountain that enter the forcing are, in every element, the derivatives along the first and the second coordinate of
the polynomials that agree with the mountain at the solution points of the line and at its two ends. -/
theorem C61_slopes (hinj : Set.InjOn (Dfr.extension g.n g.pts) (Finset.range (g.n + 2))) {r ej ei j i : Nat} (hej : ej < g.N)
    (hei : ei < g.N) (hj : j < g.n) (hi : i < g.n) (p : Polynomial ℝ) (hp : p.degree < ((g.n + 2 : Nat) : WithBot Nat)) :
    ((∀ a < g.n, p.eval (g.pts a) = mountain g r ej ei (g.pts a) (g.pts j)) → p.eval (-1) = mountain g r ej ei (-1) (g.pts j) →
      p.eval 1 = mountain g r ej ei 1 (g.pts j) → (InitShallow.topography5 g).dzdx1 r ej ei (j * g.n + i) = (derivative p).eval (g.pts i)) ∧
    ((∀ a < g.n, p.eval (g.pts a) = mountain g r ej ei (g.pts i) (g.pts a)) → p.eval (-1) = mountain g r ej ei (g.pts i) (-1) →
      p.eval 1 = mountain g r ej ei (g.pts i) 1 → (InitShallow.topography5 g).dzdx2 r ej ei (j * g.n + i) = (derivative p).eval (g.pts j)) := by
  have hs : ∀ {a b : Nat}, a < g.n → b < g.n → InitShallow.surface5 g r (g.solXY r ej ei (b * g.n + a)) = mountain g r ej ei (g.pts a) (g.pts b) := by
    intro a b ha hb
    rw [solXY_eq r ej ei ha hb]
    rfl
  have x1m : g.x1itf r ei = elementCoord (g.start1 r) (g.delta1 r) ei (-1) := by
    unfold Grid.x1itf Grid.linspace elementCoord Grid.delta1
    ring
  have x1p : g.x1itf r (ei + 1) = elementCoord (g.start1 r) (g.delta1 r) ei 1 := by
    unfold Grid.x1itf Grid.linspace elementCoord Grid.delta1
    push_cast
    ring
  have x2m : g.x2itf r ej = elementCoord (g.start2 r) (g.delta2 r) ej (-1) := by
    unfold Grid.x2itf Grid.linspace elementCoord Grid.delta2
    ring
  have x2p : g.x2itf r (ej + 1) = elementCoord (g.start2 r) (g.delta2 r) ej 1 := by
    unfold Grid.x2itf Grid.linspace elementCoord Grid.delta2
    push_cast
    ring
  have I : ∀ (s : Bool) (l : Nat), l < g.n → InitShallow.surface5I g r ej (ei + 1) s l = mountain g r ej ei (if s then 1 else -1) (g.pts l) := by
    intro s l hl
    unfold InitShallow.surface5I
    rw [if_neg (by rintro (⟨h, -⟩ | ⟨h, -⟩) <;> omega)]
    unfold Grid.itfXY1
    rw [x2_eq r ej hl]
    cases s
    · show InitShallow.surface5 g r (tan (g.x1itf r ei), _) = _
      rw [x1m]; rfl
    · show InitShallow.surface5 g r (tan (g.x1itf r (ei + 1)), _) = _
      rw [x1p]; rfl
  have J : ∀ (s : Bool) (l : Nat), l < g.n → InitShallow.surface5J g r (ej + 1) ei s l = mountain g r ej ei (g.pts l) (if s then 1 else -1) := by
    intro s l hl
    unfold InitShallow.surface5J
    rw [if_neg (by rintro (⟨h, -⟩ | ⟨h, -⟩) <;> omega)]
    unfold Grid.itfXY2
    rw [x1_eq r ei hl]
    cases s
    · show InitShallow.surface5 g r (_, tan (g.x2itf r ej)) = _
      rw [x2m]; rfl
    · show InitShallow.surface5 g r (_, tan (g.x2itf r (ej + 1))) = _
      rw [x2p]; rfl
  constructor
  · intro h1 h2 h3
    refine (Operators.C42_derivative_2d g.n g.pts hinj j i hj hi _ _ p hp).1 (fun a ha => ?_) ?_ ?_
    · rw [h1 a ha]; exact hs ha hj
    · rw [h2, Nat.mod_eq_of_lt hj, I _ _ hj]
      simp [Nat.not_le.2 hj]
    · rw [h3, Nat.add_mod_left, Nat.mod_eq_of_lt hj, I _ _ hj]
      simp
  · intro h1 h2 h3
    refine (Operators.C42_derivative_2d g.n g.pts hinj j i hj hi _ _ p hp).2 (fun a ha => ?_) ?_ ?_
    · rw [h1 a ha]; exact hs hi ha
    · rw [h2, Nat.mod_eq_of_lt hi, J _ _ hi]
      simp [Nat.not_le.2 hi]
    · rw [h3, Nat.add_mod_left, Nat.mod_eq_of_lt hi, J _ _ hi]
      simp

/-! ## The hypotheses are met -/

/-- two solution points per direction, 24 tiles, 3 × 3 elements each -/
noncomputable def small : Grid := ⟨2, 3, 2, fun i => if i = 0 then -1 / 2 else 1 / 2, 6371220, 7.292e-5, fun _ => ⟨0, 0, 0⟩⟩

/-- distinct points, inside, and the polynomial of the line exists -/
example : Set.InjOn (Dfr.extension small.n small.pts) (Finset.range (small.n + 2)) ∧ (∀ l < small.n, |small.pts l| ≤ 1) ∧ small.radius ≠ 0 ∧
    (∃ a, AreaElements small a) ∧ (∃ a, IsAreaElement (elementPoint small 7 1 2) (small.pts 1) (small.pts 0) a) ∧
    (∃ t, IsTangentBasis (elementPoint small 7 1 2) (small.pts 1) (small.pts 0) t) ∧
    ∃ p : Polynomial ℝ, p.degree < ((small.n + 2 : Nat) : WithBot Nat) ∧
      ∀ a < small.n + 2, p.eval (Dfr.extension small.n small.pts a) = mountain small 7 1 2 (Dfr.extension small.n small.pts a) (small.pts 0) := by
  have hinj : Set.InjOn (Dfr.extension small.n small.pts) (Finset.range (small.n + 2)) := by
    intro a ha b hb h
    simp only [Finset.coe_range, Set.mem_Iio, small] at ha hb
    simp only [Dfr.extension, small] at h
    interval_cases a <;> interval_cases b <;> first | rfl | (exfalso; norm_num at h; done)
  have hx : ∀ l < small.n, |small.pts l| ≤ 1 := by
    intro l hl
    simp only [small]
    split <;> norm_num [abs_le]
  obtain ⟨a, ha⟩ := area_exists hx
  have one := ha 7 (by simp [small]) 1 (by simp [small]) 2 (by simp [small]) 0 (by simp [small]) 1 (by simp [small])
  obtain ⟨t, ht, h0⟩ := one
  refine ⟨hinj, hx, by norm_num [small], ⟨a, ha⟩, ⟨_, t, ht, h0⟩, ⟨t, ht⟩,
    Lagrange.interpolate (Finset.range (small.n + 2)) (Dfr.extension small.n small.pts)
      (fun a => mountain small 7 1 2 (Dfr.extension small.n small.pts a) (small.pts 0)), ?_, ?_⟩
  · have := Lagrange.degree_interpolate_lt (fun a => mountain small 7 1 2 (Dfr.extension small.n small.pts a) (small.pts 0)) hinj
    rwa [Finset.card_range] at this
  · intro b hb
    exact Lagrange.eval_interpolate_at_node _ hinj (Finset.mem_range.2 hb)

end WxVerif.Props.BlockNumbers
