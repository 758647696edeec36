import Verif.Props.ShallowWater
import Verif.Props.EulerSphere
import Verif.Spec.Consistency
import Mathlib.Analysis.SpecialFunctions.ExpDeriv
import Mathlib.LinearAlgebra.Lagrange

/-!
# C66, cubed sphere: where the states on both sides of the element faces agree, the tendency is minus the divergence of the physical flux
-/

namespace WxVerif.Props.SphereConsistency

open Polynomial hiding comp
open WxVerif.Dfr WxVerif.Flux WxVerif.Sphere WxVerif.Topology WxVerif.Spec.Consistency WxVerif.Spec.Flux
open WxVerif.Props.Operators WxVerif.Props.Flux

/-- through the solution points of a line and its two ends there is always one polynomial of the degree that the scheme differentiates exactly:
the hypotheses `OnLine` below only name it -/
theorem onLine_exists {n : Nat} {pts : Nat → ℝ} (hinj : Set.InjOn (extension n pts) (Finset.range (n + 2))) (inner : Nat → ℝ) (first last : ℝ) :
    ∃ p : ℝ[X], OnLine n pts p inner first last := by
  let val : Nat → ℝ := fun a => if a = 0 then first else if a ≤ n then inner (a - 1) else last
  refine ⟨Lagrange.interpolate (Finset.range (n + 2)) (extension n pts) val, ?_, ?_, ?_, ?_⟩
  · have := Lagrange.degree_interpolate_lt val hinj
    simpa using this
  · intro a ha
    rw [← extension_mid pts ha, Lagrange.eval_interpolate_at_node val hinj (by simpa using by omega)]
    simp only [val, Nat.add_sub_cancel, if_neg (Nat.succ_ne_zero a), if_pos (Nat.succ_le_of_lt ha)]
  · have h0 : extension n pts 0 = -1 := by simp [extension]
    rw [← h0, Lagrange.eval_interpolate_at_node val hinj (by simp)]
    simp [val]
  · have h1 : extension n pts (n + 1) = 1 := by simp [extension]
    rw [← h1, Lagrange.eval_interpolate_at_node val hinj (by simp)]
    simp [val]

/-! ## Shallow water -/

section Shallow
open WxVerif.ShallowWater
open WxVerif.ShallowWater.Grid (itfIndex H_pos)

variable {g : Grid} {t : Topography} {Q : Field}

/-- the AUSM fluxes read depth and momenta only -/
theorem ausmSWI_congr (l r l' : SideSW) (h : ∀ v < 3, l.var v = l'.var v) (hr : ∀ v < 3, r.var v = l'.var v) (hG : l.sqrtG = l'.sqrtG) (hG' : r.sqrtG = l'.sqrtG)
    (hH : l.H = l'.H) (hH' : r.H = l'.H) (v : Nat) (hv : v < 3) : (ausmSWI l r).1 v = (ausmSWI l' l').1 v := by
  simp only [ausmSWI, h 0 (by omega), h 1 (by omega), hr 0 (by omega), hr 1 (by omega), h v hv, hr v hv, hG, hG', hH, hH']

theorem ausmSWJ_congr (l r l' : SideSW) (h : ∀ v < 3, l.var v = l'.var v) (hr : ∀ v < 3, r.var v = l'.var v) (hG : l.sqrtG = l'.sqrtG) (hG' : r.sqrtG = l'.sqrtG)
    (hH : l.H = l'.H) (hH' : r.H = l'.H) (hpos : 0 < l'.var 0) (hHp : 0 < l'.H 1 1) (v : Nat) (hv : v < 3) :
    (ausmJ l r).1 v = (ausmJ l' l').1 v ∧ (ausmJ l r).2 v = (ausmJ l r).1 v := by
  have ht : l'.var 0 * Real.sqrt (gravity * l'.var 0 * l'.H 1 1) ≠ 0 := by
    have : 0 < Real.sqrt (gravity * l'.var 0 * l'.H 1 1) := Real.sqrt_pos.mpr (by have := Props.Flux.gravity_pos; positivity)
    positivity
  have m0 : machSWJ l' = some (l'.var 2 / (l'.var 0 * Real.sqrt (gravity * l'.var 0 * l'.H 1 1))) := by simp only [machSWJ]; rw [if_pos ht]
  have m1 : machSWJ l = machSWJ l' := by simp only [machSWJ, h 0 (by omega), h 2 (by omega), hH]
  have m2 : machSWJ r = machSWJ l' := by simp only [machSWJ, hr 0 (by omega), hr 2 (by omega), hH']
  simp only [ausmJ, ausmSWJ, m1, m2, m0, Option.getD_some]
  simp only [h 0 (by omega), hr 0 (by omega), h v hv, hr v hv, hG, hG', hH, hH', and_self]

variable (g t Q) in
/-- on interface `e` of element row `ej` of tile `r`, node `l`, both adjacent elements (the neighbouring tile, at the ends of a row) hold the
state `S`: depth and two momenta -/
def AgreeI (r ej e l : Nat) (S : Nat → ℝ) : Prop := ∀ v < 3, varI g t Q r ej e true l v = S v ∧ varI g t Q r ej (e + 1) false l v = S v

variable (g t Q) in
/-- the same on interface `e` of element column `ei` -/
def AgreeJ (r e ei l : Nat) (S : Nat → ℝ) : Prop := ∀ v < 3, varJ g t Q r e ei true l v = S v ∧ varJ g t Q r (e + 1) ei false l v = S v

/-- the physical flux on interface `e` of row `ej` -/
noncomputable def physI (g : Grid) (r ej e l : Nat) (S : Nat → ℝ) (v : Nat) : ℝ :=
  shallow gravity 0 (g.sqrtG r (g.itfXY1 r ej e true l)) (g.H r (g.itfXY1 r ej e true l)) S v
/-- on interface `e` of column `ei` -/
noncomputable def physJ (g : Grid) (r e ei l : Nat) (S : Nat → ℝ) (v : Nat) : ℝ :=
  shallow gravity 1 (g.sqrtG r (g.itfXY2 r e ei true l)) (g.H r (g.itfXY2 r e ei true l)) S v
/-- at a solution point -/
noncomputable def physS (g : Grid) (Q : Field) (d r ej ei v c : Nat) : ℝ :=
  shallow gravity d (g.sqrtG r (g.solXY r ej ei c)) (g.H r (g.solXY r ej ei c)) (fun w => Q r ej ei w c) v

theorem fluxI_physical (hk : 0 < g.k) (hN : 0 < g.N) (hR : g.radius ≠ 0) {r ej e l : Nat} (he : e ≤ g.N) {S : Nat → ℝ} (h : AgreeI g t Q r ej e l S) (hS : 0 < S 0)
    (v : Nat) (hv : v < 3) : fluxI g t Q r ej e true l v = physI g r ej e l S v ∧ fluxI g t Q r ej (e + 1) false l v = physI g r ej e l S v := by
  have hx : g.itfXY1 r ej (e + 1) false l = g.itfXY1 r ej e true l := rfl
  have c := C45_shallow_i_consistent ⟨S, g.sqrtG r (g.itfXY1 r ej e true l), g.H r (g.itfXY1 r ej e true l)⟩ hS (H_pos hk hN hR r _ 0) v hv
  have e1 := ausmSWI_congr (sideI g t Q r ej e true l) (sideI g t Q r ej (e + 1) false l) ⟨S, g.sqrtG r (g.itfXY1 r ej e true l), g.H r (g.itfXY1 r ej e true l)⟩
    (fun w hw => (h w hw).1) (fun w hw => (h w hw).2) rfl (by simp [sideI, hx]) rfl (by simp [sideI, hx]) v hv
  have e2 : 1 ≤ e + 1 ∧ e + 1 ≤ g.N + 1 := by omega
  constructor
  · simp only [fluxI, faces, he, if_true]; rw [e1, c.1]; rfl
  · simp only [fluxI, faces, e2, and_self, if_true, Nat.add_sub_cancel]
    exact (e1.trans c.1)

theorem fluxJ_physical (hk : 0 < g.k) (hN : 0 < g.N) (hR : g.radius ≠ 0) {r ei e l : Nat} (he : e ≤ g.N) {S : Nat → ℝ} (h : AgreeJ g t Q r e ei l S) (hS : 0 < S 0)
    (v : Nat) (hv : v < 3) : fluxJ g t Q r e ei true l v = physJ g r e ei l S v ∧ fluxJ g t Q r (e + 1) ei false l v = physJ g r e ei l S v := by
  have hx : g.itfXY2 r (e + 1) ei false l = g.itfXY2 r e ei true l := rfl
  obtain ⟨F, hF, c⟩ := C45_shallow_j_consistent ⟨S, g.sqrtG r (g.itfXY2 r e ei true l), g.H r (g.itfXY2 r e ei true l)⟩ hS (H_pos hk hN hR r _ 1)
  have e1 := ausmSWJ_congr (sideJ g t Q r e ei true l) (sideJ g t Q r (e + 1) ei false l) ⟨S, g.sqrtG r (g.itfXY2 r e ei true l), g.H r (g.itfXY2 r e ei true l)⟩
    (fun w hw => (h w hw).1) (fun w hw => (h w hw).2) rfl (by simp [sideJ, hx]) rfl (by simp [sideJ, hx]) hS (H_pos hk hN hR r _ 1) v hv
  have e0 : (ausmJ (⟨S, g.sqrtG r (g.itfXY2 r e ei true l), g.H r (g.itfXY2 r e ei true l)⟩ : SideSW) ⟨S, g.sqrtG r (g.itfXY2 r e ei true l), g.H r (g.itfXY2 r e ei true l)⟩).1 v
      = physJ g r e ei l S v := by
    simp only [ausmJ, hF, Option.getD_some]; exact (c v hv).1
  have e2 : 1 ≤ e + 1 ∧ e + 1 ≤ g.N + 1 := by omega
  constructor
  · simp only [fluxJ, faces, he, if_true]; rw [e1.1, e0]
  · simp only [fluxJ, faces, e2, and_self, if_true, Nat.add_sub_cancel]
    rw [e1.2, e1.1, e0]

/-- **C66**, shallow water.  Take an element and a solution point of it.  If along the two lines of points through it the states on both
sides of the faces agree, with positive depth, and the physical fluxes along the two lines are those of polynomials `p1`, `p2` of degree at
most `n + 1`, then the tendency is `-(1/√G) (p1' + p2')` minus the metric, rotation and bottom terms. -/
theorem C66_shallow_water (hk : 0 < g.k) (hN : 0 < g.N) (hR : g.radius ≠ 0) (hinj : Set.InjOn (extension g.n g.pts) (Finset.range (g.n + 2)))
    {r ej ei j i : Nat} (hej : ej < g.N) (hei : ei < g.N) (hj : j < g.n) (hi : i < g.n) {west east south north : Nat → ℝ}
    (hw : AgreeI g t Q r ej ei j west) (he : AgreeI g t Q r ej (ei + 1) j east) (hs : AgreeJ g t Q r ej ei i south) (hn : AgreeJ g t Q r (ej + 1) ei i north)
    (dw : 0 < west 0) (de : 0 < east 0) (ds : 0 < south 0) (dn : 0 < north 0) (dI : ∀ c < g.n * g.n, Q r ej ei 0 c ≠ 0)
    {v : Nat} (hv : v < 3) {p1 p2 : ℝ[X]}
    (h1 : OnLine g.n g.pts p1 (fun a => physS g Q 0 r ej ei v (j * g.n + a)) (physI g r ej ei j west v) (physI g r ej (ei + 1) j east v))
    (h2 : OnLine g.n g.pts p2 (fun a => physS g Q 1 r ej ei v (a * g.n + i)) (physJ g r ej ei i south v) (physJ g r (ej + 1) ei i north v)) :
    rhs g t Q r ej ei v (j * g.n + i) =
      -(1 / g.sqrtG r (g.solXY r ej ei (j * g.n + i))) * ((derivative p1).eval (g.pts i) + (derivative p2).eval (g.pts j))
        - forcing g t Q r ej ei v (j * g.n + i) := by
  have lt : ∀ a < g.n, ∀ b < g.n, a * g.n + b < g.n * g.n := by
    intro a ha b hb
    calc a * g.n + b < a * g.n + g.n := by omega
      _ = (a + 1) * g.n := by ring
      _ ≤ g.n * g.n := Nat.mul_le_mul_right _ ha
  have inner : ∀ d < 2, ∀ c < g.n * g.n, pointwiseSW d (solSide g Q r ej ei c) v = physS g Q d r ej ei v c := fun d hd c hc =>
    C45_pointwise_shallow d hd (solSide g Q r ej ei c) (dI c hc) v hv
  have dec0 : ∀ l < g.n, decide (g.n ≤ l) = false ∧ l % g.n = l ∧ decide (g.n ≤ g.n + l) = true ∧ (g.n + l) % g.n = l := by
    intro l hl
    refine ⟨by simpa using hl, Nat.mod_eq_of_lt hl, by simp, ?_⟩
    rw [Nat.add_mod_left, Nat.mod_eq_of_lt hl]
  obtain ⟨j1, j2, j3, j4⟩ := dec0 j hj
  obtain ⟨i1, i2, i3, i4⟩ := dec0 i hi
  have a1 := (C42_derivative_2d g.n g.pts hinj j i hj hi (fun c => pointwiseSW 0 (solSide g Q r ej ei c) v)
    (fun m => fluxI g t Q r ej (ei + 1) (decide (g.n ≤ m)) (m % g.n) v) p1 h1.degree).1
    (fun a ha => by beta_reduce; rw [inner 0 (by norm_num) _ (lt j hj a ha), h1.inner a ha])
    (by beta_reduce; rw [j1, j2, (fluxI_physical hk hN hR hei.le hw dw v hv).2, h1.first])
    (by beta_reduce; rw [j3, j4, (fluxI_physical hk hN hR (by omega) he de v hv).1, h1.last])
  have a2 := (C42_derivative_2d g.n g.pts hinj j i hj hi (fun c => pointwiseSW 1 (solSide g Q r ej ei c) v)
    (fun m => fluxJ g t Q r (ej + 1) ei (decide (g.n ≤ m)) (m % g.n) v) p2 h2.degree).2
    (fun a ha => by beta_reduce; rw [inner 1 (by norm_num) _ (lt a ha i hi), h2.inner a ha])
    (by beta_reduce; rw [i1, i2, (fluxJ_physical hk hN hR hej.le hs ds v hv).2, h2.first])
    (by beta_reduce; rw [i3, i4, (fluxJ_physical hk hN hR (by omega) hn dn v hv).1, h2.last])
  rw [rhs, rhsSphere2d, a1, a2]
  ring

end Shallow

/-! ## 3D Euler equations -/

section Euler
open WxVerif.EulerSphere
open WxVerif.ShallowWater (node)
open WxVerif.ShallowWater.Grid (itfIndex)

variable {g : Atm} {f : Floor} {Q : Field3} {F : ForcingData}

/-- what the flux formulas return at a face where both sides hold the same state -/
theorem face_physical (d : Nat) (hd : d < 3) (adv : Bool) (l r : Side3) (S : Nat → ℝ) (hl : ∀ v < 5, l.var v = S v) (hr : ∀ v < 5, r.var v = S v)
    (pl : l.pres = pressure3 (S 4)) (pr : r.pres = pressure3 (S 4)) (vl : l.vel = S (d + 1) / S 0) (vr : r.vel = S (d + 1) / S 0)
    (hG : r.sqrtG = l.sqrtG) (hh : r.h = l.h) :
    (∀ i < 5, (rusanov d adv l r).1.flux i = euler3 d l.sqrtG l.h (pressure3 (S 4)) S i ∧
      (rusanov d adv l r).2.flux i = euler3 d l.sqrtG l.h (pressure3 (S 4)) S i) ∧
    ((rusanov d adv l r).1.wadv = l.sqrtG * (S (d + 1) / S 0) * S 3 ∧ (rusanov d adv l r).2.wadv = l.sqrtG * (S (d + 1) / S 0) * S 3) ∧
    ((rusanov d adv l r).1.wpres = l.sqrtG * l.h d 2 ∧ (rusanov d adv l r).2.wpres = l.sqrtG * l.h d 2) := by
  have hp := (pressure3_pos (S 4)).ne'
  refine ⟨fun i hi => ?_, ?_, ?_⟩
  · rw [rusanov_flux2, and_self_iff, rusanov_flux d hd]
    simp only [pp, hl i hi, hr i hi, pl, pr, vl, vr, hG, hh, euler3]
    split_ifs <;> ring
  · rw [(rusanov_wadv d hd adv l r).2, and_self_iff, (rusanov_wadv d hd adv l r).1]
    simp only [hl 3 (by omega), hr 3 (by omega), vl, vr, hG]
    ring
  · obtain ⟨a, b⟩ := rusanov_wpres d hd adv l r
    rw [a, b]
    simp only [pp, pl, pr, hG, hh]
    constructor <;> · norm_num; field_simp; ring

variable (g Q) in
/-- the own extrapolated state of element `(ek, ej, ei)` on its lower (`s = false`) or upper side in direction `d` -/
noncomputable def inner (d r ek ej ei : Nat) (s : Bool) (m v : Nat) : ℝ :=
  if d = 0 then qI g Q r ek ej ei v (node (g.n * g.n) s m) else if d = 1 then qJ g Q r ek ej ei v (node (g.n * g.n) s m)
  else qK g Q r ek ej ei v (node (g.n * g.n) s m)

variable (g Q) in
/-- the state on the other side of that face: of the neighbouring element, or received from the neighbouring tile; at the ground and at the
lid there is no neighbour and the own state is taken -/
noncomputable def outer (d r ek ej ei : Nat) (s : Bool) (m v : Nat) : ℝ :=
  if d = 0 then
    if s then (if ei + 1 = g.N then received g Q ek (m / g.n) r .east v (ej * g.n + m % g.n) else qI g Q r ek ej (ei + 1) v (node (g.n * g.n) false m))
    else (if ei = 0 then received g Q ek (m / g.n) r .west v (ej * g.n + m % g.n) else qI g Q r ek ej (ei - 1) v (node (g.n * g.n) true m))
  else if d = 1 then
    if s then (if ej + 1 = g.N then received g Q ek (m / g.n) r .north v (ei * g.n + m % g.n) else qJ g Q r ek (ej + 1) ei v (node (g.n * g.n) false m))
    else (if ej = 0 then received g Q ek (m / g.n) r .south v (ei * g.n + m % g.n) else qJ g Q r ek (ej - 1) ei v (node (g.n * g.n) true m))
  else
    if s then (if ek + 1 = g.nz then inner g Q 2 r ek ej ei true m v else qK g Q r (ek + 1) ej ei v (node (g.n * g.n) false m))
    else (if ek = 0 then inner g Q 2 r ek ej ei false m v else qK g Q r (ek - 1) ej ei v (node (g.n * g.n) true m))

variable (g Q) in
/-- Both sides of the face in direction `d` hold the state `S`, and nothing flows through the ground and the lid. -/
structure Agree (d r ek ej ei : Nat) (s : Bool) (m : Nat) (S : Nat → ℝ) : Prop where
  own : ∀ v < 5, inner g Q d r ek ej ei s m v = S v
  other : ∀ v < 5, outer g Q d r ek ej ei s m v = S v
  ground : d = 2 → ek = 0 → s = false → S 3 = 0
  lid : d = 2 → ek + 1 = g.nz → s = true → S 3 = 0

theorem hori_physical (d N : Nat) (hd : d < 2) (adv : Bool) (G : Nat → Bool → ℝ) (h : Nat → Bool → Nat → Nat → ℝ)
    (hG : ∀ p ≤ N, G (p + 1) false = G p true) (hh : ∀ p ≤ N, h (p + 1) false = h p true) (old : Nat → Bool → Out3)
    (q : Nat → Bool → Nat → ℝ) (first last : Nat → ℝ) (e : Nat) (he : e < N) (s : Bool) (S : Nat → ℝ) (own : ∀ v < 5, q e s v = S v)
    (other : ∀ v < 5, (if s then (if e + 1 = N then last v else q (e + 1) false v) else (if e = 0 then first v else q (e - 1) true v)) = S v) :
    let o := riemannHori d N adv G h old q first last e s
    (∀ i < 5, o.flux i = euler3 d (G (e + 1) s) (h (e + 1) s) (pressure3 (S 4)) S i) ∧ o.wadv = G (e + 1) s * (S (d + 1) / S 0) * S 3 ∧
      o.wpres = G (e + 1) s * h (e + 1) s d 2 := by
  intro o
  have mid : ∀ p s, 1 ≤ p → p ≤ N → fullHori N q first last p s = q (p - 1) s := by
    intro p s h1 h2
    simp only [fullHori, put]
    rw [if_neg (by omega), if_neg (by omega), if_pos ⟨h1, h2⟩]
  have hfirst : fullHori N q first last 0 true = first := by
    simp only [fullHori, put]
    rw [if_neg (by omega), if_pos (by simp)]
  have hlast : fullHori N q first last (N + 1) false = last := by simp only [fullHori, put]; simp
  let side : Nat → Bool → Side3 := fun p s =>
    ⟨fullHori N q first last p s, pressure3 (fullHori N q first last p s 4), fullHori N q first last p s (d + 1) / fullHori N q first last p s 0, G p s, h p s⟩
  cases s
  · simp only [Bool.false_eq_true, if_false] at other
    have l1 : ∀ v < 5, fullHori N q first last e true v = S v := by
      intro v hv
      rw [← other v hv]
      split
      · next h0 => subst h0; rw [hfirst]
      · next h0 => rw [mid e true (by omega) he.le]
    have r1 : ∀ v < 5, fullHori N q first last (e + 1) false v = S v := by
      intro v hv
      rw [mid (e + 1) false (by omega) (by omega), Nat.add_sub_cancel, own v hv]
    have fp := face_physical d (by omega) adv (side e true) (side (e + 1) false) S l1 r1 (by simp only [side, l1 4 (by omega)])
      (by simp only [side, r1 4 (by omega)]) (by simp only [side, l1 0 (by omega), l1 (d + 1) (by omega)])
      (by simp only [side, r1 0 (by omega), r1 (d + 1) (by omega)]) (hG e he.le) (hh e he.le)
    have ho : o = (rusanov d adv (side e true) (side (e + 1) false)).2 := by
      simp only [o, riemannHori, faces, Nat.add_sub_cancel]
      rw [if_pos (by omega)]
    rw [ho, hG e he.le, hh e he.le]
    exact ⟨fun i hi => (fp.1 i hi).2, fp.2.1.2, fp.2.2.2⟩
  · simp only [if_true] at other
    have l1 : ∀ v < 5, fullHori N q first last (e + 1) true v = S v := by
      intro v hv
      rw [mid (e + 1) true (by omega) (by omega), Nat.add_sub_cancel, own v hv]
    have r1 : ∀ v < 5, fullHori N q first last (e + 1 + 1) false v = S v := by
      intro v hv
      rw [← other v hv]
      split
      · next h0 => rw [h0, hlast]
      · next h0 => rw [mid (e + 1 + 1) false (by omega) (by omega)]; rfl
    have fp := face_physical d (by omega) adv (side (e + 1) true) (side (e + 1 + 1) false) S l1 r1 (by simp only [side, l1 4 (by omega)])
      (by simp only [side, r1 4 (by omega)]) (by simp only [side, l1 0 (by omega), l1 (d + 1) (by omega)])
      (by simp only [side, r1 0 (by omega), r1 (d + 1) (by omega)]) (hG (e + 1) (by omega)) (hh (e + 1) (by omega))
    have ho : o = (rusanov d adv (side (e + 1) true) (side (e + 1 + 1) false)).1 := by
      simp only [o, riemannHori, faces]
      rw [if_pos (by omega)]
    rw [ho]
    exact ⟨fun i hi => (fp.1 i hi).1, fp.2.1.1, fp.2.2.1⟩

theorem vert_physical (N : Nat) (adv : Bool) (G : Nat → Bool → ℝ) (h : Nat → Bool → Nat → Nat → ℝ)
    (hG : ∀ p ≤ N, G (p + 1) false = G p true) (hh : ∀ p ≤ N, h (p + 1) false = h p true) (old : Nat → Bool → Out3)
    (q : Nat → Bool → Nat → ℝ) (e : Nat) (he : e < N) (s : Bool) (S : Nat → ℝ) (own : ∀ v < 5, q e s v = S v)
    (other : ∀ v < 5, (if s then (if e + 1 = N then q e true v else q (e + 1) false v) else (if e = 0 then q e false v else q (e - 1) true v)) = S v)
    (ground : e = 0 → s = false → S 3 = 0) (lid : e + 1 = N → s = true → S 3 = 0) :
    let o := riemannX3 N adv G h old q e s
    (∀ i < 5, o.flux i = euler3 2 (G (e + 1) s) (h (e + 1) s) (pressure3 (S 4)) S i) ∧ o.wadv = G (e + 1) s * (S (2 + 1) / S 0) * S 3 ∧
      o.wpres = G (e + 1) s * h (e + 1) s 2 2 := by
  intro o
  have hN : 0 < N := by omega
  obtain ⟨b1, b2⟩ := fullX3_bottom N hN q
  obtain ⟨t1, t2⟩ := fullX3_top N hN q
  let side : Nat → Bool → Side3 := fun p s => ⟨fullX3 N q p s, pressure3 (fullX3 N q p s 4), wItf N (fullX3 N q) p s, G p s, h p s⟩
  cases s
  · simp only [Bool.false_eq_true, if_false] at other
    have r1 : ∀ v < 5, fullX3 N q (e + 1) false v = S v := by
      intro v hv
      rw [fullX3_mid N q (e + 1) (by omega) (by omega), Nat.add_sub_cancel, own v hv]
    have l1 : ∀ v < 5, fullX3 N q e true v = S v := by
      intro v hv
      rw [← other v hv]
      split
      · next h0 => subst h0; rw [b1]
      · next h0 => rw [fullX3_mid N q e (by omega) he.le]
    have wr : wItf N (fullX3 N q) (e + 1) false = S 3 / S 0 := by rw [wItf_mid N _ (e + 1) (by omega) (by omega), r1 3 (by omega), r1 0 (by omega)]
    have wl : wItf N (fullX3 N q) e true = S 3 / S 0 := by
      by_cases h0 : e = 0
      · subst h0
        rw [wItf_bottom N hN]
        rw [zero_add] at wr
        rw [wr, ground rfl rfl]; simp
      · rw [wItf_mid N _ e (by omega) he.le, l1 3 (by omega), l1 0 (by omega)]
    have fp := face_physical 2 (by omega) adv (side e true) (side (e + 1) false) S l1 r1 (by simp only [side, l1 4 (by omega)])
      (by simp only [side, r1 4 (by omega)]) wl wr (hG e he.le) (hh e he.le)
    have ho : o = (rusanov 2 adv (side e true) (side (e + 1) false)).2 := by
      simp only [o, riemannX3, faces, Nat.add_sub_cancel]
      rw [if_pos (by omega)]
      rfl
    rw [ho, hG e he.le, hh e he.le]
    exact ⟨fun i hi => (fp.1 i hi).2, fp.2.1.2, fp.2.2.2⟩
  · simp only [if_true] at other
    have l1 : ∀ v < 5, fullX3 N q (e + 1) true v = S v := by
      intro v hv
      rw [fullX3_mid N q (e + 1) (by omega) (by omega), Nat.add_sub_cancel, own v hv]
    have r1 : ∀ v < 5, fullX3 N q (e + 1 + 1) false v = S v := by
      intro v hv
      rw [← other v hv]
      split
      · next h0 =>
        have : N - 1 = e := by omega
        rw [h0, t2, this]
      · next h0 => rw [fullX3_mid N q (e + 1 + 1) (by omega) (by omega)]; rfl
    have wl : wItf N (fullX3 N q) (e + 1) true = S 3 / S 0 := by rw [wItf_mid N _ (e + 1) (by omega) (by omega), l1 3 (by omega), l1 0 (by omega)]
    have wr : wItf N (fullX3 N q) (e + 1 + 1) false = S 3 / S 0 := by
      by_cases h0 : e + 1 = N
      · rw [h0] at wl ⊢
        rw [wItf_top N hN, wl, lid h0 rfl]; simp
      · rw [wItf_mid N _ (e + 1 + 1) (by omega) (by omega), r1 3 (by omega), r1 0 (by omega)]
    have fp := face_physical 2 (by omega) adv (side (e + 1) true) (side (e + 1 + 1) false) S l1 r1 (by simp only [side, l1 4 (by omega)])
      (by simp only [side, r1 4 (by omega)]) wl wr (hG (e + 1) (by omega)) (hh (e + 1) (by omega))
    have ho : o = (rusanov 2 adv (side (e + 1) true) (side (e + 1 + 1) false)).1 := by
      simp only [o, riemannX3, faces]
      rw [if_pos (by omega)]
      rfl
    rw [ho]
    exact ⟨fun i hi => (fp.1 i hi).1, fp.2.1.1, fp.2.2.1⟩

/-- on a face where both sides agree, the interface arrays hold the physical flux and its two parts for the vertical momentum -/
theorem itfOut_physical {d r ek ej ei m : Nat} {s : Bool} (hd : d < 3) (hk : ek < g.nz) (hj : ej < g.N) (hi : ei < g.N) {S : Nat → ℝ}
    (h : Agree g Q d r ek ej ei s m S) :
    (∀ i < 5, (itfOut g f Q d r ek ej ei m s).flux i = euler3 d (rootG3 (facePt g f d r ek ej ei s m)) (ent3 (Hcontra3 (facePt g f d r ek ej ei s m))) (pressure3 (S 4)) S i) ∧
    (itfOut g f Q d r ek ej ei m s).wadv = rootG3 (facePt g f d r ek ej ei s m) * (S (d + 1) / S 0) * S 3 ∧
    (itfOut g f Q d r ek ej ei m s).wpres = rootG3 (facePt g f d r ek ej ei s m) * ent3 (Hcontra3 (facePt g f d r ek ej ei s m)) d 2 := by
  have hd' : d = 0 ∨ d = 1 ∨ d = 2 := by omega
  rcases hd' with rfl | rfl | rfl
  · have := hori_physical 0 g.N (by omega) (advectionOnly g) (fun p s => rootG3 (ptI g f r ek ej (itfIndex p s) m))
      (fun p s => ent3 (Hcontra3 (ptI g f r ek ej (itfIndex p s) m))) (fun _ _ => rfl) (fun _ _ => rfl) (fun _ _ => ⟨fun _ => 0, 0, 0⟩)
      (fun e s v => qI g Q r ek ej e v (node (g.n * g.n) s m))
      (fun v => received g Q ek (m / g.n) r .west v (ej * g.n + m % g.n)) (fun v => received g Q ek (m / g.n) r .east v (ej * g.n + m % g.n)) ei hi s S
      (fun v hv => by simpa [inner] using h.own v hv) (fun v hv => by simpa only [outer, if_true] using h.other v hv)
    have e : facePt g f 0 r ek ej ei s m = ptI g f r ek ej (itfIndex (ei + 1) s) m := by cases s <;> simp [facePt, itfIndex]
    rw [e]
    exact this
  · have := hori_physical 1 g.N (by omega) (advectionOnly g) (fun p s => rootG3 (ptJ g f r ek (itfIndex p s) ei m))
      (fun p s => ent3 (Hcontra3 (ptJ g f r ek (itfIndex p s) ei m))) (fun _ _ => rfl) (fun _ _ => rfl) (fun _ _ => ⟨fun _ => 0, 0, 0⟩)
      (fun e s v => qJ g Q r ek e ei v (node (g.n * g.n) s m))
      (fun v => received g Q ek (m / g.n) r .south v (ei * g.n + m % g.n)) (fun v => received g Q ek (m / g.n) r .north v (ei * g.n + m % g.n)) ej hj s S
      (fun v hv => by simpa [inner] using h.own v hv) (fun v hv => by simpa only [outer, one_ne_zero, if_false, if_true] using h.other v hv)
    have e : facePt g f 1 r ek ej ei s m = ptJ g f r ek (itfIndex (ej + 1) s) ei m := by cases s <;> simp [facePt, itfIndex]
    rw [e]
    exact this
  · have := vert_physical g.nz (advectionOnly g) (fun p s => rootG3 (ptK g f r (itfIndex p s) ej ei m))
      (fun p s => ent3 (Hcontra3 (ptK g f r (itfIndex p s) ej ei m))) (fun _ _ => rfl) (fun _ _ => rfl) (fun _ _ => ⟨fun _ => 0, 0, 0⟩)
      (fun e s v => qK g Q r e ej ei v (node (g.n * g.n) s m)) ek hk s S
      (fun v hv => by simpa [inner] using h.own v hv)
      (fun v hv => by simpa only [outer, inner, OfNat.ofNat_ne_zero, OfNat.ofNat_ne_one, if_false, if_true] using h.other v hv)
      (fun h0 hs => h.ground rfl h0 hs) (fun h0 hs => h.lid rfl h0 hs)
    have e : facePt g f 2 r ek ej ei s m = ptK g f r (itfIndex (ek + 1) s) ej ei m := by cases s <;> simp [facePt, itfIndex]
    rw [e]
    exact this

/-- solution point number `a` of the line through point `(k, j, i)` in direction `d` -/
def onLine (n d k j i a : Nat) : Nat := if d = 0 then (k * n + j) * n + a else if d = 1 then (k * n + a) * n + i else (a * n + j) * n + i
/-- interface node at the ends of that line -/
def atEnd (n d k j i : Nat) : Nat := if d = 0 then k * n + j else if d = 1 then k * n + i else j * n + i
/-- number of point `(k, j, i)` along direction `d` -/
def along (d k j i : Nat) : Nat := if d = 0 then i else if d = 1 then j else k

/-- the corrected derivative along direction `d` is exact for polynomials of degree up to `n + 1` -/
theorem dfd_exact (hinj : Set.InjOn (extension g.n g.pts) (Finset.range (g.n + 2))) {d k j i : Nat} (hd : d < 3) (hk : k < g.n) (hj : j < g.n) (hi : i < g.n)
    (q : Nat → ℝ) (E : Nat → Bool → ℝ) (p : ℝ[X])
    (h : OnLine g.n g.pts p (fun a => q (onLine g.n d k j i a)) (E (atEnd g.n d k j i) false) (E (atEnd g.n d k j i) true)) :
    dfd g d q (ofSides g E) ((k * g.n + j) * g.n + i) = (derivative p).eval (g.pts (along d k j i)) := by
  have lt : ∀ a < g.n, ∀ b < g.n, a * g.n + b < g.n * g.n := by
    intro a ha b hb
    calc a * g.n + b < a * g.n + g.n := by omega
      _ = (a + 1) * g.n := by ring
      _ ≤ g.n * g.n := Nat.mul_le_mul_right _ ha
  have lo : ∀ m < g.n * g.n, ofSides g E m = E m false ∧ ofSides g E (g.n * g.n + m) = E m true := by
    intro m hm
    simp [ofSides, hm]
  have hd' : d = 0 ∨ d = 1 ∨ d = 2 := by omega
  obtain ⟨c1, c2, c3⟩ := C42_derivative_3d g.n g.pts hinj k j i hk hj hi q (ofSides g E) p h.degree
  rcases hd' with rfl | rfl | rfl
  · simp only [dfd, if_true]
    exact c1 h.inner (by rw [(lo _ (lt k hk j hj)).1]; exact h.first) (by rw [(lo _ (lt k hk j hj)).2]; exact h.last)
  · simp only [dfd, one_ne_zero, if_false, if_true]
    exact c2 h.inner (by rw [(lo _ (lt k hk i hi)).1]; exact h.first) (by rw [(lo _ (lt k hk i hi)).2]; exact h.last)
  · simp only [dfd, OfNat.ofNat_ne_zero, OfNat.ofNat_ne_one, if_false]
    exact c3 h.inner (by rw [(lo _ (lt j hj i hi)).1]; exact h.first) (by rw [(lo _ (lt j hj i hi)).2]; exact h.last)

/-- the physical flux at a solution point -/
noncomputable def phys3 (g : Atm) (f : Floor) (Q : Field3) (d r ek ej ei v c : Nat) : ℝ :=
  euler3 d (sqrtG g f r ek ej ei c) (hc g f r ek ej ei c) (pressure3 (Q r ek ej ei 4 c)) (fun w => Q r ek ej ei w c) v

/-- the physical flux on a face with state `S` -/
noncomputable def physFace (g : Atm) (f : Floor) (d r ek ej ei : Nat) (s : Bool) (m : Nat) (S : Nat → ℝ) (v : Nat) : ℝ :=
  euler3 d (rootG3 (facePt g f d r ek ej ei s m)) (ent3 (Hcontra3 (facePt g f d r ek ej ei s m))) (pressure3 (S 4)) S v

theorem pres_eq (r ek ej ei c : Nat) : pres Q r ek ej ei c = pressure3 (Q r ek ej ei 4 c) := by unfold pres pressure3; rw [mul_comm (Rd / p0)]

theorem pointFlux_eq (d r ek ej ei v c : Nat) : pointFlux g f Q d r ek ej ei v c = phys3 g f Q d r ek ej ei v c := by
  unfold pointFlux phys3 euler3 vel
  rw [pres_eq]
  simp only
  split_ifs <;> ring

/-- **C66**, 3D Euler equations: density, horizontal momenta and potential temperature.  Take a solution point of an element.  If along the
three lines of points through it the states on both sides of the faces agree (nothing flowing through the ground and the lid), and the
physical fluxes along the three lines are those of polynomials of degree at most `n + 1`, then the tendency is minus the divergence of the
physical flux, minus the forcing. -/
theorem C66_euler (hinj : Set.InjOn (extension g.n g.pts) (Finset.range (g.n + 2))) (hadv : advectionOnly g = false)
    {r ek ej ei k j i : Nat} (hek : ek < g.nz) (hej : ej < g.N) (hei : ei < g.N) (hk : k < g.n) (hj : j < g.n) (hi : i < g.n)
    (S : Nat → Bool → Nat → ℝ) (hS : ∀ d < 3, ∀ s, Agree g Q d r ek ej ei s (atEnd g.n d k j i) (S d s)) {v : Nat} (hv : v < 5) (hv3 : v ≠ 3)
    (P : Nat → ℝ[X]) (hP : ∀ d < 3, OnLine g.n g.pts (P d) (fun a => phys3 g f Q d r ek ej ei v (onLine g.n d k j i a))
      (physFace g f d r ek ej ei false (atEnd g.n d k j i) (S d false) v) (physFace g f d r ek ej ei true (atEnd g.n d k j i) (S d true) v)) :
    rhs g f Q F r ek ej ei v ((k * g.n + j) * g.n + i) =
      -(1 / sqrtG g f r ek ej ei ((k * g.n + j) * g.n + i)) * ∑ d ∈ Finset.range 3, (derivative (P d)).eval (g.pts (along d k j i))
        - forcing g f Q F r ek ej ei v ((k * g.n + j) * g.n + i) := by
  have key : ∀ d < 3, dfd g d (pointFlux g f Q d r ek ej ei v) (ofSides g fun m s => (itfOut g f Q d r ek ej ei m s).flux v) ((k * g.n + j) * g.n + i) =
      (derivative (P d)).eval (g.pts (along d k j i)) := by
    intro d hd
    apply dfd_exact hinj hd hk hj hi
    refine ⟨(hP d hd).degree, fun a ha => ?_, ?_, ?_⟩
    · rw [pointFlux_eq]; exact (hP d hd).inner a ha
    · rw [(itfOut_physical hd hek hej hei (hS d hd false)).1 v hv]; exact (hP d hd).first
    · rw [(itfOut_physical hd hek hej hei (hS d hd true)).1 v hv]; exact (hP d hd).last
  simp only [rhs, hadv, Bool.false_eq_true, false_and, if_false, divergence, hv3, rhsSphere3d, Finset.sum_range_succ, Finset.sum_range_zero, zero_add]
  rw [← key 0 (by omega), ← key 1 (by omega), ← key 2 (by omega)]
  rfl

/-- **C66**, 3D Euler equations: vertical momentum, whose pressure gradient the model computes as `p ∂(√G h) + p √G h ∂(log p)`.  If along the
three lines the advective fluxes, the metric factors `√G h` and the logarithm of the pressure are polynomials `A`, `B`, `L` of degree at most
`n + 1`, the tendency is minus the divergence of the physical flux, which along line `d` is `A d + B d exp (L d)`, minus the forcing. -/
theorem C66_euler_vertical (hinj : Set.InjOn (extension g.n g.pts) (Finset.range (g.n + 2))) (hadv : advectionOnly g = false)
    {r ek ej ei k j i : Nat} (hek : ek < g.nz) (hej : ej < g.N) (hei : ei < g.N) (hk : k < g.n) (hj : j < g.n) (hi : i < g.n)
    (S : Nat → Bool → Nat → ℝ) (hS : ∀ d < 3, ∀ s, Agree g Q d r ek ej ei s (atEnd g.n d k j i) (S d s)) (A B L : Nat → ℝ[X])
    (hA : ∀ d < 3, OnLine g.n g.pts (A d)
      (fun a => sqrtG g f r ek ej ei (onLine g.n d k j i a) * (Q r ek ej ei (d + 1) (onLine g.n d k j i a) / Q r ek ej ei 0 (onLine g.n d k j i a))
        * Q r ek ej ei 3 (onLine g.n d k j i a))
      (rootG3 (facePt g f d r ek ej ei false (atEnd g.n d k j i)) * (S d false (d + 1) / S d false 0) * S d false 3)
      (rootG3 (facePt g f d r ek ej ei true (atEnd g.n d k j i)) * (S d true (d + 1) / S d true 0) * S d true 3))
    (hB : ∀ d < 3, OnLine g.n g.pts (B d)
      (fun a => sqrtG g f r ek ej ei (onLine g.n d k j i a) * hc g f r ek ej ei (onLine g.n d k j i a) d 2)
      (rootG3 (facePt g f d r ek ej ei false (atEnd g.n d k j i)) * ent3 (Hcontra3 (facePt g f d r ek ej ei false (atEnd g.n d k j i))) d 2)
      (rootG3 (facePt g f d r ek ej ei true (atEnd g.n d k j i)) * ent3 (Hcontra3 (facePt g f d r ek ej ei true (atEnd g.n d k j i))) d 2))
    (hL : ∀ d < 3, OnLine g.n g.pts (L d) (fun a => Real.log (pressure3 (Q r ek ej ei 4 (onLine g.n d k j i a))))
      (Real.log (pressure3 (S d false 4))) (Real.log (pressure3 (S d true 4)))) :
    (∀ d < 3, ∀ a < g.n, (A d).eval (g.pts a) + (B d).eval (g.pts a) * Real.exp ((L d).eval (g.pts a)) = phys3 g f Q d r ek ej ei 3 (onLine g.n d k j i a)) ∧
    rhs g f Q F r ek ej ei 3 ((k * g.n + j) * g.n + i) =
      -(1 / sqrtG g f r ek ej ei ((k * g.n + j) * g.n + i)) *
        ∑ d ∈ Finset.range 3, deriv (fun x => (A d).eval x + (B d).eval x * Real.exp ((L d).eval x)) (g.pts (along d k j i))
        - forcing g f Q F r ek ej ei 3 ((k * g.n + j) * g.n + i) := by
  have self : ∀ d < 3, onLine g.n d k j i (along d k j i) = (k * g.n + j) * g.n + i := by
    intro d hd
    have hd' : d = 0 ∨ d = 1 ∨ d = 2 := by omega
    rcases hd' with rfl | rfl | rfl <;> simp [onLine, along]
  have alt : ∀ d, along d k j i < g.n := by intro d; unfold along; split_ifs <;> assumption
  have key : ∀ d < 3, wdf g f Q d r ek ej ei ((k * g.n + j) * g.n + i) =
      deriv (fun x => (A d).eval x + (B d).eval x * Real.exp ((L d).eval x)) (g.pts (along d k j i)) := by
    intro d hd
    have f0 := itfOut_physical (f := f) hd hek hej hei (hS d hd false)
    have f1 := itfOut_physical (f := f) hd hek hej hei (hS d hd true)
    have th : ∀ s, itfTheta g Q d r ek ej ei (atEnd g.n d k j i) s = S d s 4 := by
      intro s
      rw [← (hS d hd s).own 4 (by omega)]
      have hd' : d = 0 ∨ d = 1 ∨ d = 2 := by omega
      rcases hd' with rfl | rfl | rfl <;> simp [itfTheta, inner]
    have a1 := dfd_exact (g := g) hinj hd hk hj hi (fun c => sqrtG g f r ek ej ei c * vel Q d r ek ej ei c * Q r ek ej ei 3 c)
      (fun m s => (itfOut g f Q d r ek ej ei m s).wadv) (A d)
      ⟨(hA d hd).degree, (hA d hd).inner, by rw [f0.2.1]; exact (hA d hd).first, by rw [f1.2.1]; exact (hA d hd).last⟩
    have a2 := dfd_exact (g := g) hinj hd hk hj hi (fun c => sqrtG g f r ek ej ei c * hc g f r ek ej ei c d 2)
      (fun m s => (itfOut g f Q d r ek ej ei m s).wpres) (B d)
      ⟨(hB d hd).degree, (hB d hd).inner, by rw [f0.2.2]; exact (hB d hd).first, by rw [f1.2.2]; exact (hB d hd).last⟩
    have a3 := dfd_exact (g := g) hinj hd hk hj hi (fun c => Real.log (pres Q r ek ej ei c))
      (fun m s => Real.log (pressure3 (itfTheta g Q d r ek ej ei m s))) (L d)
      ⟨(hL d hd).degree, fun a ha => by beta_reduce; rw [pres_eq]; exact (hL d hd).inner a ha, by rw [th]; exact (hL d hd).first, by rw [th]; exact (hL d hd).last⟩
    have D : HasDerivAt (fun x => (A d).eval x + (B d).eval x * Real.exp ((L d).eval x))
        ((derivative (A d)).eval (g.pts (along d k j i)) + ((derivative (B d)).eval (g.pts (along d k j i)) * Real.exp ((L d).eval (g.pts (along d k j i)))
          + (B d).eval (g.pts (along d k j i)) * (Real.exp ((L d).eval (g.pts (along d k j i))) * (derivative (L d)).eval (g.pts (along d k j i)))))
        (g.pts (along d k j i)) :=
      ((A d).hasDerivAt _).add (((B d).hasDerivAt _).mul (((L d).hasDerivAt _).exp))
    rw [D.deriv, ← (hB d hd).inner _ (alt d), ← (hL d hd).inner _ (alt d), self d hd, Real.exp_log (pressure3_pos _)]
    simp only [wdf]
    rw [a1, a2, a3, pres_eq]
    ring
  refine ⟨fun d hd a ha => ?_, ?_⟩
  · rw [← (hA d hd).inner a ha, ← (hB d hd).inner a ha, ← (hL d hd).inner a ha, Real.exp_log (pressure3_pos _)]
    simp only [phys3, euler3, show (1 ≤ 3 ∧ 3 ≤ 3) by omega, and_self, if_true]
    ring
  · simp only [rhs, hadv, Bool.false_eq_true, false_and, if_false, divergence, if_true, Finset.sum_range_succ, Finset.sum_range_zero, zero_add]
    rw [← key 0 (by omega), ← key 1 (by omega), ← key 2 (by omega)]

end Euler

end WxVerif.Props.SphereConsistency
