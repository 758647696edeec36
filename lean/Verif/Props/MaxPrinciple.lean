import Verif.Spec.MaxPrinciple
import Verif.Props.EulerCartesian
import Verif.Model.Schemes
import Mathlib.MeasureTheory.Integral.IntervalIntegral.Basic
import Mathlib.Analysis.SpecialFunctions.Integrals.Basic

/-!
# C89: runs with one solution point per element create no new extremes
-/

namespace WxVerif.Props.MaxPrinciple

open WxVerif.Dfr WxVerif.Flux WxVerif.EulerCartesian WxVerif.Quad WxVerif.Props.Conservation WxVerif.Props.Operators
open WxVerif.Props.Flux WxVerif.Spec.MaxPrinciple

/-- the weight of the rule with one node -/
theorem weight_one {xs ws : List ℝ} (hq : IsGaussRule 1 xs ws) : arr ws 0 = 2 := by
  obtain ⟨x, rfl⟩ := List.length_eq_one_iff.1 hq.nodes_length
  obtain ⟨w, rfl⟩ := List.length_eq_one_iff.1 hq.weights_length
  have := hq.exact 1 (by simp)
  simp [quad] at this
  simp [arr, this]
  norm_num

theorem injOn_one (pts : Nat → ℝ) : Set.InjOn pts (Finset.range 1) := by
  intro a ha b hb _
  simp at ha hb
  omega

/-- with one point, the value on all sides is the value at the point -/
theorem extrap_one (pts : Nat → ℝ) (f : Nat → ℝ) (l : Nat) (hl : l < 2) :
    vecmul (1 * 1) f (extrapX2 1 (extrapVec 1 pts (-1)) (extrapVec 1 pts 1)) l = f 0 ∧
    vecmul (1 * 1) f (extrapY2 1 (extrapVec 1 pts (-1)) (extrapVec 1 pts 1)) l = f 0 := by
  have h := C42_extrap_2d 1 pts (injOn_one pts) f 0 (by omega) (Polynomial.C (f 0))
    (lt_of_le_of_lt Polynomial.degree_C_le (by norm_num))
  obtain ⟨h1, h2⟩ := h
  have k1 := h1 (by intro a ha; have : a = 0 := by omega
                    subst this; simp)
  have k2 := h2 (by intro a ha; have : a = 0 := by omega
                    subst this; simp)
  simp only [Polynomial.eval_C] at k1 k2
  have : l = 0 ∨ l = 1 := by omega
  rcases this with rfl | rfl
  · exact ⟨k1.1, k2.1⟩
  · exact ⟨k1.2, k2.2⟩

/-- for finitely many cells there is a step size with which none loses its content -/
theorem step_exists {ι : Type*} (S : Finset ι) (loss content : ι → ℝ) (hc : ∀ i ∈ S, 0 < content i) :
    ∃ dt : ℝ, 0 < dt ∧ ∀ i ∈ S, dt * loss i < content i := by
  have hs : 0 ≤ ∑ i ∈ S, |loss i| / content i := Finset.sum_nonneg fun i hi => div_nonneg (abs_nonneg _) (hc i hi).le
  refine ⟨1 / (1 + ∑ i ∈ S, |loss i| / content i), by positivity, ?_⟩
  intro i hi
  have h1 : |loss i| / content i ≤ ∑ i ∈ S, |loss i| / content i :=
    Finset.single_le_sum (f := fun i => |loss i| / content i) (fun i hi => div_nonneg (abs_nonneg _) (hc i hi).le) hi
  have h2 := hc i hi
  rw [div_le_iff₀ h2] at h1
  rw [div_mul_eq_mul_div, one_mul, div_lt_iff₀ (by positivity)]
  linarith [le_abs_self (loss i)]

/-! ## The Cartesian model -/

section cartesian

/-- speed of sound -/
noncomputable def sound (s : State2) : ℝ := Real.sqrt (heatCapacityRatio * pressure2 s.rhoTheta * (1 / s.rho))

/-- velocity along direction `dir` -/
noncomputable def vel (dir : Nat) (s : State2) : ℝ := (if dir = 1 then s.rhoW else if dir = 0 then s.rhoU else 0) * (1 / s.rho)

/-- a transported quantity: a combination of `ρ` and `ρθ` -/
def lin (α β : ℝ) (s : State2) : ℝ := α * s.rho + β * s.rhoTheta

/-- what leaves through a face, per unit of the quantity, to the right -/
noncomputable def outR (dir : Nat) (s : State2) : ℝ := 1 / 4 * (vel dir s / sound s + 1) ^ 2 * sound s
/-- and to the left -/
noncomputable def outL (dir : Nat) (s : State2) : ℝ := 1 / 4 * (vel dir s / sound s - 1) ^ 2 * sound s

theorem face_flux (dir : Nat) (hd : dir < 2) (α β : ℝ) (l r : State2) : ∃ P N : ℝ, 0 ≤ P ∧ P ≤ outR dir l ∧ 0 ≤ N ∧ N ≤ outL dir r ∧
    lin α β (ausmKernel dir l r).1 = lin α β l * P - lin α β r * N ∧
    lin α β (ausmKernel dir l r).2 = lin α β l * P - lin α β r * N := by
  set M : ℝ := 0.25 * ((vel dir l / sound l + 1) * (vel dir l / sound l + 1) -
    (vel dir r / sound r - 1) * (vel dir r / sound r - 1)) with hM
  have ha : 0 ≤ sound l := Real.sqrt_nonneg _
  have hb : 0 ≤ sound r := Real.sqrt_nonneg _
  have h1 : max 0 M ≤ 1 / 4 * (vel dir l / sound l + 1) ^ 2 := by
    apply max_le
    · positivity
    · rw [hM]; nlinarith [mul_self_nonneg (vel dir r / sound r - 1)]
  have h2 : -min 0 M ≤ 1 / 4 * (vel dir r / sound r - 1) ^ 2 := by
    rw [← max_neg_neg, neg_zero]
    apply max_le
    · positivity
    · rw [hM]; nlinarith [mul_self_nonneg (vel dir l / sound l + 1)]
  have h3 : 0 ≤ -min 0 M := by linarith [min_le_left 0 M]
  have h4 : 0 ≤ max 0 M := le_max_left _ _
  refine ⟨max 0 M * sound l, -min 0 M * sound r, mul_nonneg h4 ha, mul_le_mul_of_nonneg_right h1 ha, mul_nonneg h3 hb,
    mul_le_mul_of_nonneg_right h2 hb, ?_⟩
  have hd' : dir = 0 ∨ dir = 1 := by omega
  have e : lin α β (ausmKernel dir l r).1 = lin α β l * (max 0 M * sound l) - lin α β r * (-min 0 M * sound r) := by
    rcases hd' with rfl | rfl
    · simp only [lin, ausmKernel, hM, vel, sound, if_true, if_false, zero_ne_one]
      ring
    · simp only [lin, ausmKernel, hM, vel, sound, if_true, if_false, one_ne_zero]
      ring
  exact ⟨e, e⟩

theorem lin_boundary (dir : Nat) (hd : dir < 2) (α β : ℝ) (s o : State2) : lin α β (boundaryKernel dir s o) = 0 := by
  have hd' : dir = 0 ∨ dir = 1 := by omega
  rcases hd' with rfl | rfl <;> simp [boundaryKernel, lin]

/-- the net outflow through the two faces of a cell is at most its content times what can leave -/
theorem line_outflow (dir N : Nat) (hd : dir < 2) (α β : ℝ) (q : Nat → State2) (old : Nat → Bool → State2)
    (hpos : ∀ e < N, 0 ≤ lin α β (q e)) (e : Nat) (he : e < N) :
    lin α β (cartesianLine dir N (fun e _ => q e) old e true) - lin α β (cartesianLine dir N (fun e _ => q e) old e false) ≤
      lin α β (q e) * (outR dir (q e) + outL dir (q e)) := by
  have h0 := hpos e he
  have hR : 0 ≤ outR dir (q e) := mul_nonneg (by positivity) (Real.sqrt_nonneg _)
  have hL : 0 ≤ outL dir (q e) := mul_nonneg (by positivity) (Real.sqrt_nonneg _)
  have a : lin α β (cartesianLine dir N (fun e _ => q e) old e true) ≤ lin α β (q e) * outR dir (q e) := by
    rw [cartesianLine_eq dir N (by omega) _ old e he true]
    dsimp only
    split_ifs with h
    · obtain ⟨P, M, p0, p1, m0, _, h5, _⟩ := face_flux dir hd α β (q e) (q (e + 1))
      rw [h5]
      have := hpos (e + 1) h
      nlinarith [mul_nonneg this m0, mul_le_mul_of_nonneg_left p1 h0]
    · rw [lin_boundary dir hd]; positivity
  have b : -lin α β (q e) * outL dir (q e) ≤ lin α β (cartesianLine dir N (fun e _ => q e) old e false) := by
    rw [cartesianLine_eq dir N (by omega) _ old e he false]
    dsimp only
    split_ifs with h
    · rw [lin_boundary dir hd]; nlinarith [mul_nonneg h0 hL]
    · obtain ⟨P, M, p0, p1, m0, m1, _, h5⟩ := face_flux dir hd α β (q (e - 1)) (q e)
      rw [h5]
      have := hpos (e - 1) (by omega)
      nlinarith [mul_nonneg this p0, mul_le_mul_of_nonneg_left m1 h0]
  linarith

theorem out_sum (dir : Nat) (s : State2) (hs : 0 < sound s) :
    outR dir s + outL dir s = (vel dir s ^ 2 / sound s + sound s) / 2 := by
  unfold outR outL
  field_simp
  ring


theorem read_one (pts : Nat → ℝ) (q : Arr) (ek ei m : Nat) (hm : m < 2) :
    EulerCartesian.read (qItf1 1 pts q) ek ei m = EulerCartesian.read q ek ei 0 ∧
    EulerCartesian.read (qItf3 1 pts q) ek ei m = EulerCartesian.read q ek ei 0 := by
  unfold EulerCartesian.read qItf1 qItf3
  simp only [(extrap_one pts _ m hm).1, (extrap_one pts _ m hm).2, and_self]

/-- the tendency of a cell is the balance of the fluxes through its four faces -/
theorem tendency_one {xs ws : List ℝ} (hq : IsGaussRule 1 xs ws) (nx nz : Nat) (Δx1 Δx3 : ℝ) (h1 : Δx1 ≠ 0) (h3 : Δx3 ≠ 0)
    (mem : Mem) (q : Arr) (ek ei : Nat) : ∃ o1 o3 : Nat → Bool → State2, ∀ v, v ≠ 2 →
    (call 1 nx nz (arr xs) Δx1 Δx3 mem q).2 v ek ei 0 =
      -(field v (cartesianLine 0 nx (fun e _ => EulerCartesian.read q ek e 0) o1 ei true) -
        field v (cartesianLine 0 nx (fun e _ => EulerCartesian.read q ek e 0) o1 ei false)) / Δx1 -
      (field v (cartesianLine 1 nz (fun e _ => EulerCartesian.read q e ei 0) o3 ek true) -
        field v (cartesianLine 1 nz (fun e _ => EulerCartesian.read q e ei 0) o3 ek false)) / Δx3 := by
  set old := mem.getD (fun _ _ _ _ => 0, fun _ _ _ _ => 0) with hold
  set I1 := riemann1 1 nx (qItf1 1 (arr xs) q) old.1 with hI1
  set I3 := riemann3 1 nz (qItf3 1 (arr xs) q) old.2 with hI3
  refine ⟨fun e side => EulerCartesian.read old.1 ek e (slot 1 0 side), fun e side => EulerCartesian.read old.2 e ei (slot 1 0 side), ?_⟩
  intro v hv
  have b := C43_budget_cartesian le_rfl hq 1 1 one_pos one_pos Δx1 Δx3 h1 h3 (fun _ _ => pointwise 0 q v ek ei)
    (fun _ _ => pointwise 1 q v ek ei) (fun _ _ => I1 v ek ei) (fun _ _ => I3 v ek ei) (by omega) (by omega)
  simp only [Finset.range_one, Finset.sum_singleton, elemSum2, weight_one hq] at b
  have rd1 : (fun e (side : Bool) => EulerCartesian.read (qItf1 1 (arr xs) q) ek e (slot 1 0 side)) =
      fun e _ => EulerCartesian.read q ek e 0 := by
    funext e s
    exact (read_one _ _ _ _ _ (by cases s <;> simp [slot])).1
  have rd3 : (fun e (side : Bool) => EulerCartesian.read (qItf3 1 (arr xs) q) e ei (slot 1 0 side)) =
      fun e _ => EulerCartesian.read q e ei 0 := by
    funext e s
    exact (read_one _ _ _ _ _ (by cases s <;> simp [slot])).2
  have e1 : ∀ l < 2, I1 v ek ei l = field v (cartesianLine 0 nx (fun e _ => EulerCartesian.read q ek e 0)
      (fun e side => EulerCartesian.read old.1 ek e (slot 1 0 side)) ei (decide (1 ≤ l))) := by
    intro l hl
    have hl' : l = 0 ∨ l = 1 := by omega
    rw [hI1, ← rd1]
    rcases hl' with rfl | rfl <;> simp [riemann1]
  have e3 : ∀ l < 2, I3 v ek ei l = field v (cartesianLine 1 nz (fun e _ => EulerCartesian.read q e ei 0)
      (fun e side => EulerCartesian.read old.2 e ei (slot 1 0 side)) ek (decide (1 ≤ l))) := by
    intro l hl
    have hl' : l = 0 ∨ l = 1 := by omega
    rw [hI3, ← rd3]
    rcases hl' with rfl | rfl <;> simp [riemann3]
  rw [e1 (1 + 0) (by omega), e1 0 (by omega), e3 (1 + 0) (by omega), e3 0 (by omega)] at b
  simp only [show decide (1 ≤ 1 + 0) = true from rfl, show decide (1 ≤ 0) = false from rfl, zero_mul, zero_add] at b
  have c : (call 1 nx nz (arr xs) Δx1 Δx3 mem q).2 v ek ei 0 = rhsCartesian 1 (arr xs) Δx1 Δx3 (pointwise 0 q v ek ei)
      (pointwise 1 q v ek ei) (I1 v ek ei) (I3 v ek ei) 0 := by
    simp only [call, hv, if_false, hI1, hI3, hold]
  rw [c]
  field_simp
  linarith

theorem sound_eq (s : State2) : sound s = soundSpeed s.rho s.rhoTheta := by
  unfold sound soundSpeed pressure2 heatCapacityRatio cvd cpd Rd p0
  norm_num
  congr 1
  rw [div_eq_mul_inv]
  ring_nf

/-- the change of a transported quantity in a step: it stays positive where it was -/
theorem step_nonneg {xs ws : List ℝ} (hq : IsGaussRule 1 xs ws) (nx nz : Nat) (Δx1 Δx3 : ℝ) (h1 : 0 < Δx1) (h3 : 0 < Δx3)
    (mem : Mem) (q : Arr) (dt : ℝ) (hdt : 0 ≤ dt) (α β : ℝ)
    (hpos : ∀ ek < nz, ∀ ei < nx, 0 ≤ lin α β (EulerCartesian.read q ek ei 0)) (ek ei : Nat) (hk : ek < nz) (hi : ei < nx)
    (hs : 0 < sound (EulerCartesian.read q ek ei 0)) :
    lin α β (EulerCartesian.read q ek ei 0) * (1 -
        (share (vel 0 (EulerCartesian.read q ek ei 0)) (sound (EulerCartesian.read q ek ei 0)) Δx1 dt +
          share (vel 1 (EulerCartesian.read q ek ei 0)) (sound (EulerCartesian.read q ek ei 0)) Δx3 dt)) ≤
      α * (q 0 ek ei 0 + dt * (call 1 nx nz (arr xs) Δx1 Δx3 mem q).2 0 ek ei 0) +
      β * (q 3 ek ei 0 + dt * (call 1 nx nz (arr xs) Δx1 Δx3 mem q).2 3 ek ei 0) := by
  obtain ⟨o1, o3, h⟩ := tendency_one hq nx nz Δx1 Δx3 h1.ne' h3.ne' mem q ek ei
  rw [h 0 (by omega), h 3 (by omega)]
  have l1 := line_outflow 0 nx (by omega) α β (fun e => EulerCartesian.read q ek e 0) o1 (fun e he => hpos ek hk e he) ei hi
  have l3 := line_outflow 1 nz (by omega) α β (fun e => EulerCartesian.read q e ei 0) o3 (fun e he => hpos e he ei hi) ek hk
  rw [out_sum _ _ hs] at l1 l3
  set s := EulerCartesian.read q ek ei 0 with hsd
  set A := cartesianLine 0 nx (fun e _ => EulerCartesian.read q ek e 0) o1 ei true
  set B := cartesianLine 0 nx (fun e _ => EulerCartesian.read q ek e 0) o1 ei false
  set C := cartesianLine 1 nz (fun e _ => EulerCartesian.read q e ei 0) o3 ek true
  set D := cartesianLine 1 nz (fun e _ => EulerCartesian.read q e ei 0) o3 ek false
  have e0 : q 0 ek ei 0 = s.rho := rfl
  have e3 : q 3 ek ei 0 = s.rhoTheta := rfl
  simp only [field, if_true, if_false, show (3 : Nat) ≠ 0 by omega, show (3 : Nat) ≠ 1 by omega, show (3 : Nat) ≠ 2 by omega]
  rw [e0, e3]
  have k1 : dt / Δx1 * (lin α β A - lin α β B) ≤ dt / Δx1 * (lin α β s * ((vel 0 s ^ 2 / sound s + sound s) / 2)) :=
    mul_le_mul_of_nonneg_left l1 (by positivity)
  have k3 : dt / Δx3 * (lin α β C - lin α β D) ≤ dt / Δx3 * (lin α β s * ((vel 1 s ^ 2 / sound s + sound s) / 2)) :=
    mul_le_mul_of_nonneg_left l3 (by positivity)
  have e : α * (s.rho + dt * (-(A.rho - B.rho) / Δx1 - (C.rho - D.rho) / Δx3)) +
      β * (s.rhoTheta + dt * (-(A.rhoTheta - B.rhoTheta) / Δx1 - (C.rhoTheta - D.rhoTheta) / Δx3)) =
      lin α β s - dt / Δx1 * (lin α β A - lin α β B) - dt / Δx3 * (lin α β C - lin α β D) := by
    unfold lin; ring
  rw [e]
  unfold share
  have f1 : dt * ((vel 0 s ^ 2 / sound s + sound s) / (2 * Δx1)) = dt / Δx1 * ((vel 0 s ^ 2 / sound s + sound s) / 2) := by
    field_simp
  have f3 : dt * ((vel 1 s ^ 2 / sound s + sound s) / (2 * Δx3)) = dt / Δx3 * ((vel 1 s ^ 2 / sound s + sound s) / 2) := by
    field_simp
  rw [f1, f3]
  linarith

/-- the cells of a state have positive density, and potential temperatures between `lo` and `hi` -/
def Inside (nx nz : Nat) (lo hi : ℝ) (q : Arr) : Prop :=
  ∀ ek < nz, ∀ ei < nx, Between lo hi (q 0 ek ei 0) (q 3 ek ei 0)

/-- no cell can lose its content in time `dt` -/
def Limited (nx nz : Nat) (Δx1 Δx3 dt : ℝ) (q : Arr) : Prop :=
  ∀ ek < nz, ∀ ei < nx,
    share (q 1 ek ei 0 / q 0 ek ei 0) (soundSpeed (q 0 ek ei 0) (q 3 ek ei 0)) Δx1 dt +
      share (q 2 ek ei 0 / q 0 ek ei 0) (soundSpeed (q 0 ek ei 0) (q 3 ek ei 0)) Δx3 dt < 1

/-- **C89**, one step of Euler1 with one solution point per element of the Cartesian model: if no cell can lose its content in the
    step, the density stays positive and the potential temperature of every cell stays between the bounds it had, for every
    state inside the bounds. -/
theorem C89_cartesian_step {xs ws : List ℝ} (hq : IsGaussRule 1 xs ws) (nx nz : Nat) (Δx1 Δx3 : ℝ) (h1 : 0 < Δx1)
    (h3 : 0 < Δx3) (mem : Mem) (q : Arr) (dt : ℝ) (hdt : 0 ≤ dt) (lo hi : ℝ) (hlo : 0 < lo) (hin : Inside nx nz lo hi q)
    (hcfl : Limited nx nz Δx1 Δx3 dt q) :
    Inside nx nz lo hi (Schemes.euler1 (fun q => (call 1 nx nz (arr xs) Δx1 Δx3 mem q).2) q dt) := by
  intro ek hk ei hi'
  have hss : 0 < sound (EulerCartesian.read q ek ei 0) := by
    obtain ⟨a, b, _⟩ := hin ek hk ei hi'
    rw [sound_eq]
    change 0 < soundSpeed (q 0 ek ei 0) (q 3 ek ei 0)
    have : 0 < q 3 ek ei 0 := lt_of_lt_of_le (mul_pos hlo a) b
    unfold soundSpeed
    positivity
  have hc := hcfl ek hk ei hi'
  have v0 : vel 0 (EulerCartesian.read q ek ei 0) = q 1 ek ei 0 / q 0 ek ei 0 := by
    simp [vel, EulerCartesian.read, div_eq_mul_inv]
  have v1 : vel 1 (EulerCartesian.read q ek ei 0) = q 2 ek ei 0 / q 0 ek ei 0 := by
    simp [vel, EulerCartesian.read, div_eq_mul_inv]
  have key := fun α β (hp : ∀ ek < nz, ∀ ei < nx, 0 ≤ lin α β (EulerCartesian.read q ek ei 0)) =>
    step_nonneg hq nx nz Δx1 Δx3 h1 h3 mem q dt hdt α β hp ek ei hk hi' hss
  rw [v0, v1, sound_eq] at key
  set sh := share (q 1 ek ei 0 / q 0 ek ei 0) (soundSpeed (EulerCartesian.read q ek ei 0).rho (EulerCartesian.read q ek ei 0).rhoTheta) Δx1 dt +
      share (q 2 ek ei 0 / q 0 ek ei 0) (soundSpeed (EulerCartesian.read q ek ei 0).rho (EulerCartesian.read q ek ei 0).rhoTheta) Δx3 dt with hsh
  have hc' : sh < 1 := hc
  have e : ∀ v, Schemes.euler1 (fun q => (call 1 nx nz (arr xs) Δx1 Δx3 mem q).2) q dt v ek ei 0 =
      q v ek ei 0 + dt * (call 1 nx nz (arr xs) Δx1 Δx3 mem q).2 v ek ei 0 := fun v => rfl
  rw [e, e]
  set R := q 0 ek ei 0 + dt * (call 1 nx nz (arr xs) Δx1 Δx3 mem q).2 0 ek ei 0
  set T := q 3 ek ei 0 + dt * (call 1 nx nz (arr xs) Δx1 Δx3 mem q).2 3 ek ei 0
  have lr : ∀ α β ek ei, lin α β (EulerCartesian.read q ek ei 0) = α * q 0 ek ei 0 + β * q 3 ek ei 0 := fun _ _ _ _ => rfl
  simp only [lr] at key
  obtain ⟨a, b, c⟩ := hin ek hk ei hi'
  refine ⟨?_, ?_, ?_⟩
  · have := key 1 0 (by intro k hk i hi; have := (hin k hk i hi).1; linarith)
    have h2 : 0 < (1 * q 0 ek ei 0 + 0 * q 3 ek ei 0) * (1 - sh) := mul_pos (by linarith) (by linarith)
    linarith
  · have := key (-lo) 1 (by intro k hk i hi; have := (hin k hk i hi).2.1; linarith)
    have h2 : 0 ≤ (-lo * q 0 ek ei 0 + 1 * q 3 ek ei 0) * (1 - sh) := mul_nonneg (by linarith) (by linarith)
    linarith
  · have := key hi (-1) (by intro k hk i hi; have := (hin k hk i hi).2.2; linarith)
    have h2 : 0 ≤ (hi * q 0 ek ei 0 + -1 * q 3 ek ei 0) * (1 - sh) := mul_nonneg (by linarith) (by linarith)
    linarith

theorem inside_mix {nx nz : Nat} {lo hi : ℝ} {p q : Arr} (hp : Inside nx nz lo hi p) (hq : Inside nx nz lo hi q) {a b : ℝ}
    (ha : 0 < a) (hb : 0 < b) : Inside nx nz lo hi (a • p + b • q) := by
  intro ek hk ei hi'
  obtain ⟨p1, p2, p3⟩ := hp ek hk ei hi'
  obtain ⟨q1, q2, q3⟩ := hq ek hk ei hi'
  have e : ∀ v, (a • p + b • q) v ek ei 0 = a * p v ek ei 0 + b * q v ek ei 0 := fun v => rfl
  rw [e, e]
  refine ⟨by positivity, ?_, ?_⟩ <;> nlinarith

/-- **C89**, whole runs with Euler1: for every sequence of step sizes such that no cell can lose its content in a step. -/
theorem C89_cartesian_run {xs ws : List ℝ} (hq : IsGaussRule 1 xs ws) (nx nz : Nat) (Δx1 Δx3 : ℝ) (h1 : 0 < Δx1)
    (h3 : 0 < Δx3) (mem : Nat → Mem) (Q : Nat → Arr) (dt : Nat → ℝ) (hdt : ∀ k, 0 ≤ dt k) (lo hi : ℝ) (hlo : 0 < lo)
    (hrun : ∀ k, Q (k + 1) = Schemes.euler1 (fun q => (call 1 nx nz (arr xs) Δx1 Δx3 (mem k) q).2) (Q k) (dt k))
    (hin : Inside nx nz lo hi (Q 0)) (hcfl : ∀ k, Limited nx nz Δx1 Δx3 (dt k) (Q k)) (k : Nat) : Inside nx nz lo hi (Q k) := by
  induction k with
  | zero => exact hin
  | succ k ih =>
    rw [hrun]
    exact C89_cartesian_step hq nx nz Δx1 Δx3 h1 h3 (mem k) (Q k) (dt k) (hdt k) lo hi hlo ih (hcfl k)

/-- **C89**, one step of Tvdrk3, if no cell can lose its content from the state of any of the three stages. -/
theorem C89_cartesian_tvdrk3 {xs ws : List ℝ} (hq : IsGaussRule 1 xs ws) (nx nz : Nat) (Δx1 Δx3 : ℝ) (h1 : 0 < Δx1)
    (h3 : 0 < Δx3) (mem : Mem) (q : Arr) (dt : ℝ) (hdt : 0 ≤ dt) (lo hi : ℝ) (hlo : 0 < lo) (hin : Inside nx nz lo hi q)
    (q1 q2 : Arr) (hq1 : q1 = Schemes.euler1 (fun q => (call 1 nx nz (arr xs) Δx1 Δx3 mem q).2) q dt)
    (hq2 : q2 = (3 / 4 : ℝ) • q + (1 / 4 : ℝ) • Schemes.euler1 (fun q => (call 1 nx nz (arr xs) Δx1 Δx3 mem q).2) q1 dt)
    (hcfl : Limited nx nz Δx1 Δx3 dt q) (hcfl1 : Limited nx nz Δx1 Δx3 dt q1) (hcfl2 : Limited nx nz Δx1 Δx3 dt q2) :
    Inside nx nz lo hi (Schemes.tvdrk3 (fun q => (call 1 nx nz (arr xs) Δx1 Δx3 mem q).2) q dt) := by
  set f : Arr → Arr := fun q => (call 1 nx nz (arr xs) Δx1 Δx3 mem q).2 with hf
  have step := fun q h c => C89_cartesian_step hq nx nz Δx1 Δx3 h1 h3 mem q dt hdt lo hi hlo h c
  have i1 : Inside nx nz lo hi q1 := by rw [hq1]; exact step q hin hcfl
  have i2 : Inside nx nz lo hi q2 := by
    rw [hq2]; exact inside_mix hin (step q1 i1 hcfl1) (by norm_num) (by norm_num)
  have e : Schemes.tvdrk3 f q dt = (1 / 3 : ℝ) • q + (2 / 3 : ℝ) • Schemes.euler1 f q2 dt := by
    have : q2 = (3 / 4 : ℝ) • q + (1 / 4 : ℝ) • (q + dt • f q) + ((1 / 4 : ℝ) * dt) • f (q + dt • f q) := by
      rw [hq2, hq1]; unfold Schemes.euler1; rw [smul_add, smul_smul, add_assoc]
    unfold Schemes.tvdrk3 Schemes.euler1
    dsimp only
    rw [← this, smul_add, smul_smul, add_assoc]
  rw [e]
  exact inside_mix hin (step q2 i2 hcfl2) (by norm_num) (by norm_num)

/-- **C89**, in words of the usual condition: for flow slower than sound it is enough that sound does not cross a cell,
    `c dt (1 / Δx1 + 1 / Δx3) < 1`. -/
theorem C89_cartesian_courant (nx nz : Nat) (Δx1 Δx3 : ℝ) (h1 : 0 < Δx1) (h3 : 0 < Δx3) (q : Arr) (dt : ℝ) (hdt : 0 ≤ dt)
    (h : ∀ ek < nz, ∀ ei < nx, 0 < soundSpeed (q 0 ek ei 0) (q 3 ek ei 0) ∧
      |q 1 ek ei 0 / q 0 ek ei 0| ≤ soundSpeed (q 0 ek ei 0) (q 3 ek ei 0) ∧
      |q 2 ek ei 0 / q 0 ek ei 0| ≤ soundSpeed (q 0 ek ei 0) (q 3 ek ei 0) ∧
      soundSpeed (q 0 ek ei 0) (q 3 ek ei 0) * dt * (1 / Δx1 + 1 / Δx3) < 1) : Limited nx nz Δx1 Δx3 dt q := by
  have sh : ∀ v c Δ : ℝ, 0 < c → |v| ≤ c → 0 < Δ → share v c Δ dt ≤ c * dt * (1 / Δ) := by
    intro v c Δ hc hv hD
    unfold share
    have : v ^ 2 / c ≤ c := by
      rw [div_le_iff₀ hc, ← sq_abs]
      have := abs_nonneg v
      nlinarith
    have h2 : (v ^ 2 / c + c) / (2 * Δ) ≤ c / Δ := by
      rw [div_le_div_iff₀ (by positivity) hD]
      nlinarith
    calc dt * ((v ^ 2 / c + c) / (2 * Δ)) ≤ dt * (c / Δ) := mul_le_mul_of_nonneg_left h2 hdt
      _ = _ := by ring
  intro ek hk ei hi
  obtain ⟨a, b, c, d⟩ := h ek hk ei hi
  have := sh _ _ Δx1 a b h1
  have := sh _ _ Δx3 a c h3
  linarith

/-- **C89** Such steps exist: for every state there is a positive step size with which no cell can lose its content. -/
theorem C89_cartesian_possible (nx nz : Nat) (Δx1 Δx3 : ℝ) (q : Arr) : ∃ dt : ℝ, 0 < dt ∧ Limited nx nz Δx1 Δx3 dt q := by
  obtain ⟨dt, h0, h⟩ := step_exists ((Finset.range nz) ×ˢ (Finset.range nx))
    (fun c => share (q 1 c.1 c.2 0 / q 0 c.1 c.2 0) (soundSpeed (q 0 c.1 c.2 0) (q 3 c.1 c.2 0)) Δx1 1 +
      share (q 2 c.1 c.2 0 / q 0 c.1 c.2 0) (soundSpeed (q 0 c.1 c.2 0) (q 3 c.1 c.2 0)) Δx3 1) (fun _ => 1) (by intros; norm_num)
  refine ⟨dt, h0, fun ek hk ei hi => ?_⟩
  have := h ⟨ek, ei⟩ (by simp [hk, hi])
  unfold share at this ⊢
  linarith

/-- a state with two different densities, temperatures and winds -/
example : Inside 2 1 300 310 (fun v _ ei _ => if v = 0 then 1 + ei else if v = 3 then (1 + ei) * (300 + 10 * ei) else 5 - 3 * ei) := by
  intro ek hk ei hi
  have : ei = 0 ∨ ei = 1 := by omega
  rcases this with rfl | rfl <;> norm_num [Between]

/-- A state of one element with two points along each side: density one, wind towards the right wall, warmer on the right. -/
def warmRight : Arr := fun v _ _ c => if v = 0 then 1 else if v = 1 then 1 else if v = 2 then 0 else if c % 2 = 0 then 300 else 310

/-- the nodes of the rule with two nodes -/
theorem nodes_two {xs ws : List ℝ} (hq : IsGaussRule 2 xs ws) : ∃ a : ℝ, 0 < a ∧ a < 1 ∧ xs = [-a, a] := by
  obtain ⟨x, y, rfl⟩ := List.length_eq_two.1 hq.nodes_length
  have m := hq.mirror
  have inc := hq.increasing
  have ins := hq.inside y (by simp)
  simp at m inc
  refine ⟨y, by linarith [m.1], ins.2, by simp [m.2]⟩

theorem field_boundary (dir : Nat) (hd : dir < 2) (v : Nat) (hv : v = 0 ∨ v = 3) (s o : State2) :
    field v (boundaryKernel dir s o) = 0 := by
  have hd' : dir = 0 ∨ dir = 1 := by omega
  rcases hd' with rfl | rfl <;> rcases hv with rfl | rfl <;> simp [boundaryKernel, field]

/-- in one element between walls nothing passes the faces -/
theorem walls_zero (qi old : Arr) (v : Nat) (hv : v = 0 ∨ v = 3) (l : Nat) (n : Nat) :
    riemann1 n 1 qi old v 0 0 l = 0 ∧ riemann3 n 1 qi old v 0 0 l = 0 := by
  unfold riemann1 riemann3
  dsimp only
  rw [cartesianLine_eq 0 1 (by omega) _ _ 0 (by omega), cartesianLine_eq 1 1 (by omega) _ _ 0 (by omega)]
  cases decide (n ≤ l) <;> simp [field_boundary _ _ v hv]

open Polynomial in
/-- **C89** is not true of elements with two points along a side: from a state with temperatures between 300 and 310 the first
    step of Euler1 of every small enough size makes air colder than 300, whatever the sizes of the element and what was computed before.
    The only element lies between walls. -/
theorem C89_two_points_fails {xs ws : List ℝ} (hq : IsGaussRule 2 xs ws) (Δx1 Δx3 : ℝ) (h1 : 0 < Δx1) (mem : Mem) :
    (∀ c < 4, Between 300 310 (warmRight 0 0 0 c) (warmRight 3 0 0 c)) ∧
    ∃ dt0 : ℝ, 0 < dt0 ∧ ∀ dt : ℝ, 0 < dt → dt < dt0 →
      let q := Schemes.euler1 (fun q => (call 2 1 1 (arr xs) Δx1 Δx3 mem q).2) warmRight dt
      0 < q 0 0 0 0 ∧ q 3 0 0 0 / q 0 0 0 0 < 300 := by
  constructor
  · intro c _
    unfold Between warmRight
    split_ifs <;> norm_num at *
  obtain ⟨a, a0, a1, rfl⟩ := nodes_two hq
  have hinj := extension_injOn hq
  have g : (0 : ℝ) < 1 - a ^ 2 := by nlinarith
  have p0 : arr [-a, a] 0 = -a := rfl
  have p1 : arr [-a, a] 1 = a := rfl
  -- the derivatives of the two fluxes at the first point
  have x : ∀ v, (v = 0 ∨ v = 3) → ∀ itf : Nat → ℝ, (∀ l, itf l = 0) →
      df1_2d 2 (arr [-a, a]) (pointwise 0 warmRight v 0 0) itf 0 =
        2 * a * warmRight v 0 0 0 / (1 - a ^ 2) + (warmRight v 0 0 1 - warmRight v 0 0 0) / (2 * a) := by
    intro v hv itf hitf
    set A := (warmRight v 0 0 0 + warmRight v 0 0 1) / 2 with hA
    set B := (warmRight v 0 0 1 - warmRight v 0 0 0) / (2 * a) with hB
    have := (C42_derivative_2d 2 (arr [-a, a]) hinj 0 0 (by omega) (by omega) (pointwise 0 warmRight v 0 0) itf
      (C (1 / (1 - a ^ 2)) * (1 - X ^ 2) * (C A + C B * X)) (by
        refine lt_of_le_of_lt (b := ((3 : Nat) : WithBot Nat)) ?_ (by norm_num)
        compute_degree
        norm_num)).1 (by
        intro c hc
        have : c = 0 ∨ c = 1 := by omega
        rcases this with rfl | rfl
        · rw [p0, show pointwise 0 warmRight v 0 0 (0 * 2 + 0) = warmRight v 0 0 0 by
            rcases hv with rfl | rfl <;> simp [pointwise, pointwise2, field, EulerCartesian.read, warmRight]]
          simp only [eval_mul, eval_C, eval_sub, eval_one, eval_pow, eval_X, eval_add, hA, hB]
          field_simp
          ring
        · rw [p1, show pointwise 0 warmRight v 0 0 (0 * 2 + 1) = warmRight v 0 0 1 by
            rcases hv with rfl | rfl <;> simp [pointwise, pointwise2, field, EulerCartesian.read, warmRight]]
          simp only [eval_mul, eval_C, eval_sub, eval_one, eval_pow, eval_X, eval_add, hA, hB]
          field_simp
          ring) (by rw [hitf]; simp) (by rw [hitf]; simp)
    rw [show 0 * 2 + 0 = 0 from rfl, p0] at this
    rw [this]
    simp only [derivative_mul, derivative_C, derivative_sub, derivative_one, derivative_X_pow, derivative_add, derivative_X, eval_mul, eval_C,
      eval_sub, eval_one, eval_pow, eval_X, eval_add, eval_zero, hA, hB]
    simp
    field_simp
    ring
  have z : ∀ v, (v = 0 ∨ v = 3) → ∀ itf : Nat → ℝ, (∀ l, itf l = 0) →
      df2_2d 2 (arr [-a, a]) (pointwise 1 warmRight v 0 0) itf 0 = 0 := by
    intro v hv itf hitf
    have := (C42_derivative_2d 2 (arr [-a, a]) hinj 0 0 (by omega) (by omega) (pointwise 1 warmRight v 0 0) itf 0 (by
      rw [degree_zero]; exact WithBot.bot_lt_coe _)).2 (by
        intro c _
        rcases hv with rfl | rfl <;> simp [pointwise, pointwise2, field, EulerCartesian.read, warmRight]) (by rw [hitf]; simp) (by rw [hitf]; simp)
    simpa using this
  have r : ∀ v, (v = 0 ∨ v = 3) → (call 2 1 1 (arr [-a, a]) Δx1 Δx3 mem warmRight).2 v 0 0 0 =
      (2 * a * warmRight v 0 0 0 / (1 - a ^ 2) + (warmRight v 0 0 1 - warmRight v 0 0 0) / (2 * a)) * (-2 / Δx1) := by
    intro v hv
    have hv2 : v ≠ 2 := by omega
    unfold call
    dsimp only
    rw [if_neg hv2]
    unfold rhsCartesian
    rw [x v hv _ fun l => (walls_zero _ _ v hv l 2).1, z v hv _ fun l => (walls_zero _ _ v hv l 2).2]
    ring
  have r0 := r 0 (Or.inl rfl)
  have r3 := r 3 (Or.inr rfl)
  simp only [show warmRight 0 0 0 0 = 1 from rfl, show warmRight 0 0 0 1 = 1 from rfl,
    show warmRight 3 0 0 0 = 300 from rfl, show warmRight 3 0 0 1 = 310 from rfl] at r0 r3
  refine ⟨Δx1 * (1 - a ^ 2) / (4 * a), by positivity, fun dt hdt hlt => ?_⟩
  have e : ∀ v, Schemes.euler1 (fun q => (call 2 1 1 (arr [-a, a]) Δx1 Δx3 mem q).2) warmRight dt v 0 0 0 =
      warmRight v 0 0 0 + dt * (call 2 1 1 (arr [-a, a]) Δx1 Δx3 mem warmRight).2 v 0 0 0 := fun v => rfl
  dsimp only
  rw [e, e, r0, r3, show warmRight 0 0 0 0 = 1 from rfl, show warmRight 3 0 0 0 = 300 from rfl]
  rw [lt_div_iff₀ (by positivity)] at hlt
  have pos : 0 < 1 + dt * ((2 * a * 1 / (1 - a ^ 2) + (1 - 1) / (2 * a)) * (-2 / Δx1)) := by
    have : 1 + dt * ((2 * a * 1 / (1 - a ^ 2) + (1 - 1) / (2 * a)) * (-2 / Δx1)) =
        (Δx1 * (1 - a ^ 2) - dt * (4 * a)) / (Δx1 * (1 - a ^ 2)) := by
      field_simp
      ring
    rw [this]
    exact div_pos (by linarith) (by positivity)
  refine ⟨pos, ?_⟩
  rw [div_lt_iff₀ pos]
  have : 300 * (1 + dt * ((2 * a * 1 / (1 - a ^ 2) + (1 - 1) / (2 * a)) * (-2 / Δx1))) -
      (300 + dt * ((2 * a * 300 / (1 - a ^ 2) + (310 - 300) / (2 * a)) * (-2 / Δx1))) = dt * (10 / (a * Δx1)) := by
    field_simp
    ring
  have h : 0 < dt * (10 / (a * Δx1)) := by positivity
  linarith

end cartesian

end WxVerif.Props.MaxPrinciple
