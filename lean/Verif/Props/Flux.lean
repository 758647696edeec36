/-
C45: numerical fluxes are consistent, single-valued and mirror-symmetric.
C46: no mass crosses the model bottom and top.
-/
import Verif.Model.Flux
import Verif.Spec.Flux
import Verif.Props.Conservation
import Mathlib.Tactic.LinearCombination
import Mathlib.Tactic.NormNum
import Mathlib.Tactic.FieldSimp
import Mathlib.Tactic.Positivity

namespace WxVerif.Props.Flux

open WxVerif.Flux WxVerif.Spec.Flux

/-! ## One formula for the three Rusanov functions -/

/-- pressure part of the flux -/
noncomputable def pp (d : Nat) (s : Side3) (i : Nat) : ℝ := if 1 ≤ i ∧ i ≤ 3 then s.sqrtG * s.h d (i - 1) * s.pres else 0

/-- wave speed on one side -/
noncomputable def eig1 (d : Nat) (adv : Bool) (s : Side3) : ℝ :=
  if adv then |s.vel| else |s.vel| + Real.sqrt (s.h d d * heatCapacityRatio * s.pres / s.var 0)

theorem rusanov_flux (d : Nat) (hd : d < 3) (adv : Bool) (l r : Side3) (i : Nat) :
    (rusanov d adv l r).1.flux i = 0.5 * (l.sqrtG * l.vel * l.var i + pp d l i + (r.sqrtG * r.vel * r.var i + pp d r i)
      - max (eig1 d adv l) (eig1 d adv r) * l.sqrtG * (r.var i - l.var i)) := by
  have h4 : i = 0 ∨ i = 1 ∨ i = 2 ∨ i = 3 ∨ 4 ≤ i := by omega
  have hd' : d = 0 ∨ d = 1 ∨ d = 2 := by omega
  rcases h4 with rfl | rfl | rfl | rfl | h
  rotate_left 4
  · have e1 : i ≠ 1 := by omega
    have e2 : i ≠ 2 := by omega
    have e3 : i ≠ 3 := by omega
    have e4 : ¬ (1 ≤ i ∧ i ≤ 3) := by omega
    rcases hd' with rfl | rfl | rfl <;>
      simp [rusanov, rusanovHoriI, rusanovHoriJ, rusanovVert, pp, eig1, e1, e2, e3, e4]
  all_goals
    rcases hd' with rfl | rfl | rfl <;> simp [rusanov, rusanovHoriI, rusanovHoriJ, rusanovVert, pp, eig1]

theorem rusanov_flux2 (d : Nat) (adv : Bool) (l r : Side3) : (rusanov d adv l r).2.flux = (rusanov d adv l r).1.flux := by
  unfold rusanov; split_ifs <;> rfl

theorem rusanov_wadv (d : Nat) (hd : d < 3) (adv : Bool) (l r : Side3) :
    (rusanov d adv l r).1.wadv = 0.5 * (l.sqrtG * l.vel * l.var 3 + r.sqrtG * r.vel * r.var 3
      - max (eig1 d adv l) (eig1 d adv r) * l.sqrtG * (r.var 3 - l.var 3)) ∧ (rusanov d adv l r).2.wadv = (rusanov d adv l r).1.wadv := by
  have hd' : d = 0 ∨ d = 1 ∨ d = 2 := by omega
  rcases hd' with rfl | rfl | rfl <;> simp [rusanov, rusanovHoriI, rusanovHoriJ, rusanovVert, eig1]

theorem rusanov_wpres (d : Nat) (hd : d < 3) (adv : Bool) (l r : Side3) :
    (rusanov d adv l r).1.wpres = 0.5 * (pp d l 3 + pp d r 3) / l.pres ∧ (rusanov d adv l r).2.wpres = 0.5 * (pp d l 3 + pp d r 3) / r.pres := by
  have hd' : d = 0 ∨ d = 1 ∨ d = 2 := by omega
  rcases hd' with rfl | rfl | rfl <;> simp [rusanov, rusanovHoriI, rusanovHoriJ, rusanovVert, pp]

/-! ## Consistency -/

/-- **C45** Rusanov fluxes, all three directions: if both sides hold the same state, and the normal velocity is the one of that
state, the flux on both sides is the physical flux, whatever the wave speed. -/
theorem C45_rusanov_consistent (d : Nat) (hd : d < 3) (adv : Bool) (s : Side3) (hv : s.vel = s.var (d + 1) / s.var 0) (i : Nat) :
    ((rusanov d adv s s).1.flux i = euler3 d s.sqrtG s.h s.pres s.var i ∧
      (rusanov d adv s s).2.flux i = euler3 d s.sqrtG s.h s.pres s.var i) := by
  rw [rusanov_flux2, rusanov_flux d hd]
  refine ⟨?_, ?_⟩ <;>
  · unfold euler3 pp
    rw [hv]
    split_ifs <;> ring

example : ∃ s : Side3, s.vel = s.var 3 / s.var 0 ∧ s.var 3 ≠ 0 ∧ s.pres ≠ 0 :=
  ⟨⟨fun i => (i : ℝ) + 1, 1, 4, 1, fun _ _ => 1⟩, by norm_num, by norm_num, by norm_num⟩

/-- **C45** The vertical momentum flux is split into its advective part and, divided by the pressure of the receiving side, its
pressure part: on both sides the two parts add up to the flux. -/
theorem C45_w_split (d : Nat) (hd : d < 3) (adv : Bool) (l r : Side3) (hl : l.pres ≠ 0) (hr : r.pres ≠ 0) :
    (rusanov d adv l r).1.wadv + (rusanov d adv l r).1.wpres * l.pres = (rusanov d adv l r).1.flux 3 ∧
      (rusanov d adv l r).2.wadv + (rusanov d adv l r).2.wpres * r.pres = (rusanov d adv l r).2.flux 3 := by
  obtain ⟨a1, a2⟩ := rusanov_wadv d hd adv l r
  obtain ⟨b1, b2⟩ := rusanov_wpres d hd adv l r
  rw [rusanov_flux2, rusanov_flux d hd, a2, a1, b1, b2]
  constructor <;>
  · rw [div_mul_cancel₀ _ (by assumption)]
    ring

/-- **C45** Same state on both sides: the separate parts of the vertical momentum flux are the physical ones. -/
theorem C45_w_consistent (d : Nat) (hd : d < 3) (adv : Bool) (s : Side3) (hv : s.vel = s.var (d + 1) / s.var 0) (hp : s.pres ≠ 0) :
    (rusanov d adv s s).1.wadv = s.sqrtG * (s.var (d + 1) / s.var 0) * s.var 3 ∧ (rusanov d adv s s).1.wpres = s.sqrtG * s.h d 2 := by
  obtain ⟨a1, _⟩ := rusanov_wadv d hd adv s s
  obtain ⟨b1, _⟩ := rusanov_wpres d hd adv s s
  rw [a1, b1, hv]
  constructor
  · ring
  · unfold pp
    norm_num
    field_simp
    try ring

/-- **C45** Reflecting the problem (exchanging the sides and reversing the direction) reflects the flux, provided both sides of the
face have the same volume element. -/
theorem C45_rusanov_mirror (d : Nat) (hd : d < 3) (adv : Bool) (l r : Side3) (hG : l.sqrtG = r.sqrtG) (i : Nat) :
    let m : Side3 → Side3 := fun s => ⟨mirror d s.var, s.pres, -s.vel, s.sqrtG, mirrorMetric d s.h⟩
    (rusanov d adv (m r) (m l)).1.flux i = -sign d i * (rusanov d adv l r).1.flux i := by
  intro m
  have he : ∀ s, eig1 d adv (m s) = eig1 d adv s := by
    intro s
    simp only [eig1, m, abs_neg, mirrorMetric, mirror, sign]
    norm_num
  have hpp : ∀ s, pp d (m s) i = -sign d i * pp d s i := by
    intro s
    simp only [pp, m, mirrorMetric, sign]
    by_cases h : 1 ≤ i ∧ i ≤ 3
    · rw [if_pos h, if_pos h]
      by_cases hi : i = d + 1
      · subst hi; simp
      · have : ¬ (i - 1 = d) := by omega
        rw [if_neg hi, if_neg (by simp [this])]; ring
    · rw [if_neg h, if_neg h]; ring
  have hvar : ∀ s, (m s).var i = sign d i * s.var i := fun s => rfl
  rw [rusanov_flux d hd, rusanov_flux d hd, he, he, hpp, hpp, hvar, hvar, max_comm]
  simp only [m, hG]
  ring

example : ∃ l r : Side3, l.sqrtG = r.sqrtG ∧ l.var 0 ≠ r.var 0 ∧ l.vel ≠ r.vel :=
  ⟨⟨fun _ => 1, 1, 1, 2, fun _ _ => 1⟩, ⟨fun _ => 2, 1, 3, 2, fun _ _ => 1⟩, rfl, by norm_num, by norm_num⟩

/-- **C45** With advection only and the same normal velocity and volume element on both sides, density, potential temperature and
tracers are taken from the upwind side. -/
theorem C45_rusanov_upwind (d : Nat) (hd : d < 3) (l r : Side3) (hv : l.vel = r.vel) (hG : l.sqrtG = r.sqrtG) (i : Nat)
    (hi : ¬ (1 ≤ i ∧ i ≤ 3)) :
    (rusanov d true l r).1.flux i = l.sqrtG * l.vel * (if 0 ≤ l.vel then l.var i else r.var i) := by
  rw [rusanov_flux d hd]
  simp only [pp, hi, if_false, eig1, if_true, ← hv, max_self, ← hG]
  split_ifs with h
  · rw [abs_of_nonneg h]; ring
  · rw [abs_of_neg (lt_of_not_ge h)]; ring

/-! ## Single value per face -/

/-- **C45** Along a line of elements every face hands the same flux to both adjacent elements: in the 3D model in every direction,
including the faces shared with the halo. -/
theorem C45_rusanov_single_valued (d N : Nat) (adv : Bool) (sides : Nat → Bool → Side3) (old : Nat → Bool → Out3) (f : Nat)
    (hf : f ≤ N) :
    (faces N (rusanov d adv) sides old (f + 1) false).flux = (faces N (rusanov d adv) sides old f true).flux ∧
      (faces N (rusanov d adv) sides old (f + 1) false).wadv = (faces N (rusanov d adv) sides old f true).wadv := by
  have : 1 ≤ f + 1 ∧ f + 1 ≤ N + 1 := by omega
  simp only [faces, this, hf, if_true, and_self, Nat.add_sub_cancel]
  unfold rusanov
  split_ifs <;> exact ⟨rfl, rfl⟩

/-! ## AUSM -/

theorem ausm_mach (m : ℝ) : (0.25 : ℝ) * ((m + 1) ^ 2 - (m - 1) ^ 2) = m := by ring
theorem ausm_split (m : ℝ) : max 0 m + min 0 m = m := by
  rcases le_total 0 m with h | h <;> simp [h]

/-- **C45** Finite-volume AUSM flux: consistent (both directions, density and pressure positive). -/
theorem C45_ausm_fv_consistent (d : Nat) (s : Side2) (hρ : 0 < s.var 0) (hp : 0 < s.pres) (i : Nat) :
    (ausm2dFv d s s).1 i = euler2 d s.pres s.var i ∧ (ausm2dFv d s s).2 i = euler2 d s.pres s.var i := by
  have hγ : 0 < heatCapacityRatio := by unfold heatCapacityRatio cvd cpd Rd; norm_num
  have ha : 0 < Real.sqrt (heatCapacityRatio * s.pres / s.var 0) := Real.sqrt_pos.mpr (by positivity)
  have key : ∀ x : ℝ, x * max 0 (s.var (d + 1) / (s.var 0 * Real.sqrt (heatCapacityRatio * s.pres / s.var 0))) * Real.sqrt (heatCapacityRatio * s.pres / s.var 0) +
      x * min 0 (s.var (d + 1) / (s.var 0 * Real.sqrt (heatCapacityRatio * s.pres / s.var 0))) * Real.sqrt (heatCapacityRatio * s.pres / s.var 0) =
      s.var (d + 1) / s.var 0 * x := by
    intro x
    rw [← add_mul, ← mul_add, ausm_split]
    field_simp
  simp only [ausm2dFv, ausm_mach, key, euler2]
  constructor <;> split_ifs <;> ring

example : ∃ s : Side2, 0 < s.var 0 ∧ 0 < s.pres ∧ s.var 1 ≠ 0 := ⟨⟨fun _ => 1, 2, fun _ => 0⟩, by norm_num, by norm_num, by norm_num⟩

/-- **C45** Finite-volume AUSM flux: mirror-symmetric. -/
theorem C45_ausm_fv_mirror (d : Nat) (L R : Side2) (i : Nat) :
    let m : Side2 → Side2 := fun s => ⟨mirror d s.var, s.pres, fun i => -sign d i * s.flux i⟩
    (ausm2dFv d (m R) (m L)).1 i = -sign d i * (ausm2dFv d L R).1 i := by
  intro m
  have h0 : ∀ s, (m s).var 0 = s.var 0 := by intro s; simp [m, mirror, sign]
  have hd : ∀ s, (m s).var (d + 1) = -s.var (d + 1) := by intro s; simp [m, mirror, sign]
  have hi : ∀ s, (m s).var i = sign d i * s.var i := fun s => rfl
  have hp : ∀ s, (m s).pres = s.pres := fun s => rfl
  simp only [ausm2dFv, h0, hd, hi, hp]
  generalize Real.sqrt (heatCapacityRatio * L.pres / L.var 0) = aL
  generalize Real.sqrt (heatCapacityRatio * R.pres / R.var 0) = aR
  rw [neg_div, neg_div]
  generalize L.var (d + 1) / (L.var 0 * aL) = mL
  generalize R.var (d + 1) / (R.var 0 * aR) = mR
  have e : (0.25 : ℝ) * ((-mR + 1) ^ 2 - (-mL - 1) ^ 2) = -(0.25 * ((mL + 1) ^ 2 - (mR - 1) ^ 2)) := by ring
  rw [e]
  generalize (0.25 : ℝ) * ((mL + 1) ^ 2 - (mR - 1) ^ 2) = M
  have e1 : max 0 (-M) = -min 0 M := by rcases le_total 0 M with h | h <;> simp [h]
  have e2 : min 0 (-M) = -max 0 M := by rcases le_total 0 M with h | h <;> simp [h]
  rw [e1, e2]
  unfold sign
  split_ifs <;> ring

theorem upwind_left (d : Nat) (L R : Side2) (h : L.var (d + 1) + R.var (d + 1) > 0) : (upwind2dFv d L R).1 = L.flux := by
  simp only [upwind2dFv, if_pos h]
theorem upwind_right (d : Nat) (L R : Side2) (h : ¬ L.var (d + 1) + R.var (d + 1) > 0) : (upwind2dFv d L R).1 = R.flux := by
  simp only [upwind2dFv, if_neg h]

/-- **C45** Finite-volume upwind flux: consistent whenever the fluxes it is given are, and mirror-symmetric except where the two
normal momenta cancel exactly. -/
theorem C45_upwind_fv (d : Nat) (L R : Side2) (i : Nat) :
    (upwind2dFv d L L).1 i = L.flux i ∧ (upwind2dFv d L R).2 = (upwind2dFv d L R).1 ∧
    (L.var (d + 1) + R.var (d + 1) ≠ 0 →
      let m : Side2 → Side2 := fun s => ⟨mirror d s.var, s.pres, fun i => -sign d i * s.flux i⟩
      (upwind2dFv d (m R) (m L)).1 i = -sign d i * (upwind2dFv d L R).1 i) := by
  refine ⟨by simp [upwind2dFv], rfl, fun hne => ?_⟩
  intro m
  have hm : ∀ s, (m s).var (d + 1) = -s.var (d + 1) := by intro s; simp [m, mirror, sign]
  rcases lt_or_gt_of_ne hne with h | h
  · rw [upwind_left d (m R) (m L) (by rw [hm, hm]; linarith), upwind_right d L R (by linarith)]
  · rw [upwind_right d (m R) (m L) (by rw [hm, hm]; linarith), upwind_left d L R h]

/-- **C45** Finite-volume Rusanov flux: consistent whenever the fluxes it is given are, single-valued and mirror-symmetric. -/
theorem C45_rusanov_fv (d : Nat) (L R : Side2) (i : Nat) :
    (rusanov2dFv d L L).1 i = L.flux i ∧ (rusanov2dFv d L R).2 = (rusanov2dFv d L R).1 ∧
    let m : Side2 → Side2 := fun s => ⟨mirror d s.var, s.pres, fun i => -sign d i * s.flux i⟩
    (rusanov2dFv d (m R) (m L)).1 i = -sign d i * (rusanov2dFv d L R).1 i := by
  refine ⟨?_, rfl, ?_⟩
  · simp only [rusanov2dFv]; ring
  · have h0 : sign d 0 = 1 := by simp [sign]
    have hs : sign d (d + 1) = -1 := by simp [sign]
    simp only [rusanov2dFv, mirror, h0, hs, one_mul, neg_mul, neg_div, abs_neg]
    rw [max_comm]
    ring

/-- **C45** Finite-volume Rusanov flux: the mean of the two fluxes minus half the largest wave speed times the jump, so that the jump is
damped; the wave speed is the normal speed plus the sound speed. -/
theorem C45_rusanov_fv_dissipation (d : Nat) (L R : Side2) (i : Nat) :
    ∃ c : ℝ, (rusanov2dFv d L R).1 i = (L.flux i + R.flux i) / 2 - c / 2 * (R.var i - L.var i) ∧
      (∀ s ∈ [L, R], |s.var (d + 1) / s.var 0| + Real.sqrt (heatCapacityRatio * s.pres / s.var 0) ≤ c) ∧
      ∃ s ∈ [L, R], c = |s.var (d + 1) / s.var 0| + Real.sqrt (heatCapacityRatio * s.pres / s.var 0) := by
  set e : Side2 → ℝ := fun s => |s.var (d + 1) / s.var 0| + Real.sqrt (heatCapacityRatio * s.pres / s.var 0) with he
  have pos : ∀ s, |e s| = e s := fun s => abs_of_nonneg (add_nonneg (abs_nonneg _) (Real.sqrt_nonneg _))
  refine ⟨max (e L) (e R), ?_, ?_, ?_⟩
  · have := pos L
    have := pos R
    simp only [he] at *
    simp only [rusanov2dFv, *]
    ring
  · intro s hs
    simp only [List.mem_cons, List.not_mem_nil, or_false] at hs
    rcases hs with rfl | rfl
    · exact le_max_left _ _
    · exact le_max_right _ _
  · rcases max_cases (e L) (e R) with h | h
    · exact ⟨L, by simp, h.1⟩
    · exact ⟨R, by simp, h.1⟩

/-! ## The compiled kernel of the Cartesian model -/

/-- density, momenta and potential temperature by number -/
def comp (q : State2) (i : Nat) : ℝ := if i = 0 then q.rho else if i = 1 then q.rhoU else if i = 2 then q.rhoW else q.rhoTheta

theorem gamma_pos : 0 < heatCapacityRatio := by unfold heatCapacityRatio cvd cpd Rd; norm_num

theorem pressure2_pos {x : ℝ} (hx : 0 < x) : 0 < pressure2 x := by
  unfold pressure2 p0 Rd
  have : (0:ℝ) < x * 287.05 * (1 / 100000) := by positivity
  have := Real.rpow_pos_of_pos this heatCapacityRatio
  positivity

/-- The flux computed at solution points is the physical flux. -/
theorem C45_pointwise_cartesian (dir : Nat) (hd : dir < 2) (q : State2) (hρ : q.rho ≠ 0) (hθ : 0 < q.rhoTheta) (i : Nat) (hi : i < 4) :
    comp (pointwise2 dir q) i = euler2 dir (pressure2 q.rhoTheta) (comp q) i := by
  have hp : p0 * Real.exp (heatCapacityRatio * Real.log (Rd * (1 / p0) * q.rhoTheta)) = pressure2 q.rhoTheta := by
    unfold pressure2
    have h0 : (0:ℝ) < q.rhoTheta * Rd * (1 / p0) := by unfold Rd p0; positivity
    rw [Real.rpow_def_of_pos h0]
    congr 2
    rw [mul_comm heatCapacityRatio]
    congr 2
    ring
  have hd' : dir = 0 ∨ dir = 1 := by omega
  have hi' : i = 0 ∨ i = 1 ∨ i = 2 ∨ i = 3 := by omega
  rcases hd' with rfl | rfl <;> rcases hi' with rfl | rfl | rfl | rfl <;> 
    simp only [pointwise2, comp, euler2, hp, reduceIte, Nat.reduceEqDiff, Nat.reduceAdd, one_ne_zero, zero_ne_one,
      OfNat.ofNat_ne_zero, zero_add, add_zero] <;> field_simp

/-- **C45** What the compiled AUSM kernel returns when both sides hold the same state: the physical flux for density, tangential momentum
and potential temperature, but only the pressure for the normal momentum. -/
theorem C45_kernel_partial (dir : Nat) (hd : dir < 2) (q : State2) (hρ : 0 < q.rho) (hθ : 0 < q.rhoTheta) (i : Nat) (hi : i < 4) :
    comp (ausmKernel dir q q).1 i =
      if i = dir + 1 then pressure2 q.rhoTheta else euler2 dir (pressure2 q.rhoTheta) (comp q) i := by
  have hp := pressure2_pos hθ
  have ha : 0 < Real.sqrt (heatCapacityRatio * pressure2 q.rhoTheta * (1 / q.rho)) :=
    Real.sqrt_pos.mpr (by have := gamma_pos; positivity)
  have e : ∀ v : ℝ, (0.25 : ℝ) * ((v + 1) * (v + 1) - (v - 1) * (v - 1)) = v := fun v => by ring
  have key : ∀ x v : ℝ, x * (max 0 (v / Real.sqrt (heatCapacityRatio * pressure2 q.rhoTheta * (1 / q.rho))) *
        Real.sqrt (heatCapacityRatio * pressure2 q.rhoTheta * (1 / q.rho))) +
      x * (min 0 (v / Real.sqrt (heatCapacityRatio * pressure2 q.rhoTheta * (1 / q.rho))) *
        Real.sqrt (heatCapacityRatio * pressure2 q.rhoTheta * (1 / q.rho))) = v * x := by
    intro x v
    rw [← mul_add, ← add_mul, ausm_split, div_mul_cancel₀ _ ha.ne', mul_comm]
  have hd' : dir = 0 ∨ dir = 1 := by omega
  have hi' : i = 0 ∨ i = 1 ∨ i = 2 ∨ i = 3 := by omega
  rcases hd' with rfl | rfl <;> rcases hi' with rfl | rfl | rfl | rfl <;>
    simp only [ausmKernel, comp, euler2, e, key, if_true, if_false, zero_add, reduceIte, Nat.reduceEqDiff, Nat.reduceAdd,
      one_ne_zero, zero_ne_one, OfNat.ofNat_ne_zero] <;> first | ring1 | (norm_num; ring1) | (norm_num; field_simp; ring1) | norm_num

/-- **C45** The compiled AUSM kernel is consistent exactly for states without flow through the face: the normal momentum
flux it returns lacks the advection `ρ u²`. -/
theorem C45_kernel_consistent_iff (dir : Nat) (hd : dir < 2) (q : State2) (hρ : 0 < q.rho) (hθ : 0 < q.rhoTheta) :
    (∀ i < 4, comp (ausmKernel dir q q).1 i = euler2 dir (pressure2 q.rhoTheta) (comp q) i) ↔ comp q (dir + 1) = 0 := by
  constructor
  · intro h
    have h1 := h (dir + 1) (by omega)
    rw [C45_kernel_partial dir hd q hρ hθ (dir + 1) (by omega), if_pos rfl] at h1
    simp only [euler2, if_true] at h1
    have h2 : comp q (dir + 1) / comp q 0 * comp q (dir + 1) = 0 := by linarith
    have h3 : comp q 0 = q.rho := rfl
    rw [h3, div_mul_eq_mul_div, div_eq_zero_iff] at h2
    rcases h2 with h2 | h2
    · exact mul_self_eq_zero.mp h2
    · exact absurd h2 hρ.ne'
  · intro h i hi
    rw [C45_kernel_partial dir hd q hρ hθ i hi]
    split_ifs with hc
    · simp only [euler2, hc, h, if_true]; ring
    · rfl

/-- **C45 is violated** by the compiled kernel: a uniform flow of air at 10 m/s. -/
theorem C45_kernel_fails : ∃ q : State2, 0 < q.rho ∧ 0 < q.rhoTheta ∧
    (ausmKernel 0 q q).1.rhoU ≠ (pointwise2 0 q).rhoU ∧ (ausmKernel 0 q q).1.rhoU = (pointwise2 0 q).rhoU - 100 := by
  have h1 := C45_kernel_partial 0 (by norm_num) ⟨1, 10, 0, 300⟩ (by norm_num) (by norm_num) 1 (by norm_num)
  have h2 := C45_pointwise_cartesian 0 (by norm_num) ⟨1, 10, 0, 300⟩ (by norm_num) (by norm_num) 1 (by norm_num)
  simp only [comp, euler2, if_true, reduceIte, one_ne_zero, if_false, zero_add] at h1 h2
  refine ⟨⟨1, 10, 0, 300⟩, by norm_num, by norm_num, ?_, ?_⟩
  · rw [h1, h2]; norm_num
  · rw [h1, h2]; ring

/-- **C45** The compiled kernel is mirror-symmetric. -/
theorem C45_kernel_mirror (dir : Nat) (hd : dir < 2) (l r : State2) (i : Nat) (hi : i < 4) :
    let m : State2 → State2 := fun q => if dir = 0 then ⟨q.rho, -q.rhoU, q.rhoW, q.rhoTheta⟩ else ⟨q.rho, q.rhoU, -q.rhoW, q.rhoTheta⟩
    comp (ausmKernel dir (m r) (m l)).1 i = -sign dir i * comp (ausmKernel dir l r).1 i := by
  intro m
  have hd' : dir = 0 ∨ dir = 1 := by omega
  have hi' : i = 0 ∨ i = 1 ∨ i = 2 ∨ i = 3 := by omega
  have e1 : ∀ M : ℝ, max 0 (-M) = -min 0 M := by intro M; rcases le_total 0 M with h | h <;> simp [h]
  have e2 : ∀ M : ℝ, min 0 (-M) = -max 0 M := by intro M; rcases le_total 0 M with h | h <;> simp [h]
  have e : ∀ x y : ℝ, (0.25 : ℝ) * ((-x + 1) * (-x + 1) - (-y - 1) * (-y - 1)) = -(0.25 * ((y + 1) * (y + 1) - (x - 1) * (x - 1))) := fun x y => by ring
  rcases hd' with rfl | rfl <;> rcases hi' with rfl | rfl | rfl | rfl <;>
    simp only [ausmKernel, comp, m, sign, reduceIte, Nat.reduceEqDiff, Nat.reduceAdd, one_ne_zero, zero_ne_one,
      OfNat.ofNat_ne_zero, neg_mul, neg_div, e, e1, e2, if_true, if_false, zero_add] <;> ring

/-- What the loops over faces and walls of the Cartesian model leave in the flux array of a line of `N` elements. -/
theorem cartesianLine_eq (dir N : Nat) (hN : 0 < N) (q old : Nat → Bool → State2) (e : Nat) (he : e < N) (side : Bool) :
    cartesianLine dir N q old e side =
      match side with
      | true => if e + 1 < N then (ausmKernel dir (q e true) (q (e + 1) false)).1 else boundaryKernel dir (q e true) (old e true)
      | false => if e = 0 then boundaryKernel dir (q 0 false) (old 0 false) else (ausmKernel dir (q (e - 1) true) (q e false)).2 := by
  have inv : ∀ k ≤ N, ∀ (p : Nat) (s : Bool), (List.range k).foldl (fun a e =>
      if e + 1 < N then
        let f := ausmKernel dir (q e true) (q (e + 1) false)
        put (put a e true f.1) (e + 1) false f.2
      else a) old p s =
      match s with
      | true => if p < k ∧ p + 1 < N then (ausmKernel dir (q p true) (q (p + 1) false)).1 else old p true
      | false => if 1 ≤ p ∧ p ≤ k ∧ p < N then (ausmKernel dir (q (p - 1) true) (q p false)).2 else old p false := by
    intro k
    induction k with
    | zero =>
      intro _ p s
      cases s
      · simp only [List.range_zero, List.foldl_nil]
        rw [if_neg (by omega)]
      · simp
    | succ k ih =>
      intro hk p s
      rw [List.range_succ, List.foldl_append]
      simp only [List.foldl_cons, List.foldl_nil]
      have ih' := ih (by omega) p s
      by_cases hkN : k + 1 < N
      · rw [if_pos hkN]
        simp only [put]
        cases s
        · simp only [and_true, and_false, if_false, Bool.false_eq_true] at ih' ⊢
          by_cases hp : p = k + 1
          · subst hp
            rw [if_pos rfl, if_pos (by omega)]
            simp
          · rw [if_neg hp, ih']
            by_cases hc : 1 ≤ p ∧ p ≤ k ∧ p < N
            · rw [if_pos hc, if_pos (by omega)]
            · rw [if_neg hc, if_neg (by omega)]
        · simp only [and_true, and_false, if_false, Bool.true_eq_false] at ih' ⊢
          by_cases hp : p = k
          · subst hp
            rw [if_pos rfl, if_pos (by omega)]
          · rw [if_neg hp, ih']
            by_cases hc : p < k ∧ p + 1 < N
            · rw [if_pos hc, if_pos (by omega)]
            · rw [if_neg hc, if_neg (by omega)]
      · rw [if_neg hkN, ih']
        cases s
        · simp only
          by_cases hc : 1 ≤ p ∧ p ≤ k ∧ p < N
          · rw [if_pos hc, if_pos (by omega)]
          · rw [if_neg hc, if_neg (by omega)]
        · simp only
          by_cases hc : p < k ∧ p + 1 < N
          · rw [if_pos hc, if_pos (by omega)]
          · rw [if_neg hc, if_neg (by omega)]
  unfold cartesianLine
  simp only
  have hin := inv N le_rfl
  cases side
  · simp only [put, and_false, and_true, if_false, Bool.false_eq_true]
    by_cases h0 : e = 0
    · subst h0
      simp only [if_true, hin]
      rw [if_neg (by omega)]
    · simp only [h0, if_false, hin]
      rw [if_pos (by omega)]
  · simp only [put, and_true, and_false, Bool.true_eq_false, if_false, hin]
    by_cases h1 : e + 1 < N
    · rw [if_neg (by omega), if_pos (by omega), if_pos h1]
    · have : e = N - 1 := by omega
      subst this
      rw [if_pos rfl, if_neg (by omega), if_neg h1]

/-- **C45** Faces between elements of the Cartesian model: both sides receive the same flux, whatever the arrays held before. -/
theorem C45_cartesian_single_valued (dir N : Nat) (q old : Nat → Bool → State2) (e : Nat) (he : e + 1 < N) :
    cartesianLine dir N q old (e + 1) false = cartesianLine dir N q old e true := by
  rw [cartesianLine_eq dir N (by omega) q old (e + 1) he false, cartesianLine_eq dir N (by omega) q old e (by omega) true]
  simp [he, ausmKernel]

/-- **C46** Walls of the Cartesian model: on all four of them the flux of density, tangential momentum and potential temperature is zero
and that of the normal momentum is the pressure there, for every state. -/
theorem C46_cartesian_walls (dir N : Nat) (hd : dir < 2) (hN : 0 < N) (q old : Nat → Bool → State2) (i : Nat) (hi : i < 4) :
    comp (cartesianLine dir N q old 0 false) i = (if i = dir + 1 then pressure2 (q 0 false).rhoTheta else 0) ∧
      comp (cartesianLine dir N q old (N - 1) true) i = if i = dir + 1 then pressure2 (q (N - 1) true).rhoTheta else 0 := by
  rw [cartesianLine_eq dir N hN q old 0 hN false, cartesianLine_eq dir N hN q old (N - 1) (by omega) true]
  have h1 : ¬ (N - 1 + 1 < N) := by omega
  have hd' : dir = 0 ∨ dir = 1 := by omega
  have hi' : i = 0 ∨ i = 1 ∨ i = 2 ∨ i = 3 := by omega
  simp only [h1, if_false, if_true]
  rcases hd' with rfl | rfl <;> rcases hi' with rfl | rfl | rfl | rfl <;> simp [boundaryKernel, comp]

/-! ## Shallow water -/

theorem gravity_pos : 0 < gravity := by unfold gravity; norm_num

/-- The flux computed at solution points is the physical flux. -/
theorem C45_pointwise_shallow (d : Nat) (hd : d < 2) (s : SideSW) (hh : s.var 0 ≠ 0) (i : Nat) (hi : i < 3) :
    pointwiseSW d s i = shallow gravity d s.sqrtG s.H s.var i := by
  have hd' : d = 0 ∨ d = 1 := by omega
  have hi' : i = 0 ∨ i = 1 ∨ i = 2 := by omega
  rcases hd' with rfl | rfl <;> rcases hi' with rfl | rfl | rfl <;> 
    simp only [pointwiseSW, shallow, reduceIte, Nat.reduceEqDiff, Nat.reduceAdd, one_ne_zero, zero_ne_one,
      OfNat.ofNat_ne_zero, zero_add, add_zero, Nat.reduceLeDiff, Nat.reduceSub, Nat.sub_self, le_refl, Nat.not_ofNat_le_one, nonpos_iff_eq_zero] <;> field_simp <;> try ring1

/-- **C45** Shallow-water flux along x1: consistent. -/
theorem C45_shallow_i_consistent (s : SideSW) (hh : 0 < s.var 0) (hH : 0 < s.H 0 0) (i : Nat) (hi : i < 3) :
    (ausmSWI s s).1 i = shallow gravity 0 s.sqrtG s.H s.var i ∧ (ausmSWI s s).2 i = shallow gravity 0 s.sqrtG s.H s.var i := by
  have ha : 0 < Real.sqrt (gravity * s.var 0 * s.H 0 0) := Real.sqrt_pos.mpr (by have := gravity_pos; positivity)
  have ht : s.var 0 * Real.sqrt (gravity * s.var 0 * s.H 0 0) ≠ 0 := by positivity
  have hi' : i = 0 ∨ i = 1 ∨ i = 2 := by omega
  have key : ∀ x m a : ℝ, max 0 m * a * x + min 0 m * a * x = m * a * x := by
    intro x m a; rw [← add_mul, ← add_mul, ausm_split]
  have key2 : s.var 1 / (s.var 0 * Real.sqrt (gravity * s.var 0 * s.H 0 0)) * Real.sqrt (gravity * s.var 0 * s.H 0 0) = s.var 1 / s.var 0 := by
    rw [← div_div, div_mul_cancel₀ _ ha.ne']
  simp only [ausmSWI, ht, ne_eq, not_false_eq_true, if_true, ausm_mach, key, key2, shallow]
  rcases hi' with rfl | rfl | rfl <;> refine ⟨?_, ?_⟩ <;> norm_num <;> ring

/-- **C45** Shallow-water flux along x2: it is finite and consistent. -/
theorem C45_shallow_j_consistent (s : SideSW) (hh : 0 < s.var 0) (hH : 0 < s.H 1 1) :
    ∃ F, ausmSWJ s s = some F ∧ ∀ i < 3, F.1 i = shallow gravity 1 s.sqrtG s.H s.var i ∧ F.2 i = shallow gravity 1 s.sqrtG s.H s.var i := by
  have ha : 0 < Real.sqrt (gravity * s.var 0 * s.H 1 1) := Real.sqrt_pos.mpr (by have := gravity_pos; positivity)
  have ht : s.var 0 * Real.sqrt (gravity * s.var 0 * s.H 1 1) ≠ 0 := by positivity
  have key : ∀ x m a : ℝ, max 0 m * a * x + min 0 m * a * x = m * a * x := by
    intro x m a; rw [← add_mul, ← add_mul, ausm_split]
  have key2 : s.var 2 / (s.var 0 * Real.sqrt (gravity * s.var 0 * s.H 1 1)) * Real.sqrt (gravity * s.var 0 * s.H 1 1) = s.var 2 / s.var 0 := by
    rw [← div_div, div_mul_cancel₀ _ ha.ne']
  have hm : machSWJ s = some (s.var 2 / (s.var 0 * Real.sqrt (gravity * s.var 0 * s.H 1 1))) := by simp only [machSWJ]; rw [if_pos ht]
  unfold ausmSWJ
  rw [hm]
  refine ⟨_, rfl, ?_⟩
  intro i hi
  have hi' : i = 0 ∨ i = 1 ∨ i = 2 := by omega
  simp only [ausm_mach, key, key2, shallow]
  rcases hi' with rfl | rfl | rfl <;> refine ⟨?_, ?_⟩ <;> norm_num <;> ring

example : ∃ s : SideSW, 0 < s.var 0 ∧ 0 < s.H 0 0 ∧ 0 < s.H 1 1 ∧ s.var 1 ≠ 0 ∧ s.H 0 1 ≠ 0 :=
  ⟨⟨fun i => (i : ℝ) + 1, 2, fun i j => (i : ℝ) + j + 1⟩, by norm_num, by norm_num, by norm_num, by norm_num, by norm_num⟩

/-- **C45** Upwinding of the shallow-water flux along x1: where the flow goes from the first side to the second exactly at the speed of
gravity waves on both sides, no signal travels back and the flux is the physical flux of the first side. -/
theorem C45_shallow_i_upwind (l r : SideSW) (hl : 0 < l.var 0) (hr : 0 < r.var 0) (hHl : 0 < l.H 0 0) (hHr : 0 < r.H 0 0)
    (cl : l.var 1 / l.var 0 = Real.sqrt (gravity * l.var 0 * l.H 0 0)) (cr : r.var 1 / r.var 0 = Real.sqrt (gravity * r.var 0 * r.H 0 0))
    (i : Nat) (hi : i < 3) : (ausmSWI l r).1 i = shallow gravity 0 l.sqrtG l.H l.var i := by
  have al : 0 < Real.sqrt (gravity * l.var 0 * l.H 0 0) := Real.sqrt_pos.mpr (by have := gravity_pos; positivity)
  have ar : 0 < Real.sqrt (gravity * r.var 0 * r.H 0 0) := Real.sqrt_pos.mpr (by have := gravity_pos; positivity)
  have tl : l.var 0 * Real.sqrt (gravity * l.var 0 * l.H 0 0) ≠ 0 := by positivity
  have tr : r.var 0 * Real.sqrt (gravity * r.var 0 * r.H 0 0) ≠ 0 := by positivity
  have ml : l.var 1 / (l.var 0 * Real.sqrt (gravity * l.var 0 * l.H 0 0)) = 1 := by rw [← div_div, cl, div_self al.ne']
  have mr : r.var 1 / (r.var 0 * Real.sqrt (gravity * r.var 0 * r.H 0 0)) = 1 := by rw [← div_div, cr, div_self ar.ne']
  have M : (0.25 : ℝ) * ((1 + 1) ^ 2 - (1 - 1) ^ 2) = 1 := by norm_num
  have hi' : i = 0 ∨ i = 1 ∨ i = 2 := by omega
  simp only [ausmSWI, tl, tr, ne_eq, not_false_eq_true, if_true, ml, mr, M, shallow, cl, zero_add, zero_le_one, max_eq_right, min_eq_left]
  rcases hi' with rfl | rfl | rfl <;> norm_num <;> ring

/-- **C45** Upwinding of the shallow-water flux along x2. -/
theorem C45_shallow_j_upwind (l r : SideSW) (hl : 0 < l.var 0) (hr : 0 < r.var 0) (hHl : 0 < l.H 1 1) (hHr : 0 < r.H 1 1)
    (cl : l.var 2 / l.var 0 = Real.sqrt (gravity * l.var 0 * l.H 1 1)) (cr : r.var 2 / r.var 0 = Real.sqrt (gravity * r.var 0 * r.H 1 1)) :
    ∃ F, ausmSWJ l r = some F ∧ ∀ i < 3, F.1 i = shallow gravity 1 l.sqrtG l.H l.var i := by
  have al : 0 < Real.sqrt (gravity * l.var 0 * l.H 1 1) := Real.sqrt_pos.mpr (by have := gravity_pos; positivity)
  have ar : 0 < Real.sqrt (gravity * r.var 0 * r.H 1 1) := Real.sqrt_pos.mpr (by have := gravity_pos; positivity)
  have tl : l.var 0 * Real.sqrt (gravity * l.var 0 * l.H 1 1) ≠ 0 := by positivity
  have tr : r.var 0 * Real.sqrt (gravity * r.var 0 * r.H 1 1) ≠ 0 := by positivity
  have ml : machSWJ l = some 1 := by
    simp only [machSWJ]; rw [if_pos tl, ← div_div, cl, div_self al.ne']
  have mr : machSWJ r = some 1 := by
    simp only [machSWJ]; rw [if_pos tr, ← div_div, cr, div_self ar.ne']
  have M : (0.25 : ℝ) * ((1 + 1) ^ 2 - (1 - 1) ^ 2) = 1 := by norm_num
  unfold ausmSWJ
  rw [ml, mr]
  refine ⟨_, rfl, ?_⟩
  intro i hi
  have hi' : i = 0 ∨ i = 1 ∨ i = 2 := by omega
  simp only [M, shallow, cl, Nat.reduceAdd, zero_le_one, max_eq_right, min_eq_left]
  rcases hi' with rfl | rfl | rfl <;> norm_num <;> ring

/-- two different states that flow at the speed of gravity waves -/
example : ∃ l r : SideSW, 0 < l.var 0 ∧ 0 < r.var 0 ∧ 0 < l.H 0 0 ∧ 0 < r.H 0 0 ∧ l.var 0 ≠ r.var 0 ∧
    l.var 1 / l.var 0 = Real.sqrt (gravity * l.var 0 * l.H 0 0) ∧ r.var 1 / r.var 0 = Real.sqrt (gravity * r.var 0 * r.H 0 0) :=
  ⟨⟨fun i => if i = 0 then 1 else Real.sqrt gravity, 1, fun _ _ => 1⟩, ⟨fun i => if i = 0 then 2 else 2 * Real.sqrt (gravity * 2), 1, fun _ _ => 1⟩,
    by norm_num, by norm_num, by norm_num, by norm_num, by norm_num, by simp, by simp⟩

/-- **C45** Dry faces: where the depth and the momenta are zero on both sides nothing flows, in both directions. -/
theorem C45_shallow_dry (l r : SideSW) (hl : ∀ i < 3, l.var i = 0) (hr : ∀ i < 3, r.var i = 0) :
    (∀ i < 3, (ausmSWI l r).1 i = 0) ∧ ∃ F, ausmSWJ l r = some F ∧ ∀ i < 3, F.1 i = 0 := by
  have l0 := hl 0 (by omega)
  have l2 := hl 2 (by omega)
  have r0 := hr 0 (by omega)
  have r2 := hr 2 (by omega)
  constructor
  · intro i hi
    simp only [ausmSWI, l0, r0, hl i hi, hr i hi]
    split_ifs <;> simp
  · have hml : machSWJ l = some 0 := by simp [machSWJ, l0, l2]
    have hmr : machSWJ r = some 0 := by simp [machSWJ, r0, r2]
    unfold ausmSWJ
    rw [hml, hmr]
    refine ⟨_, rfl, ?_⟩
    intro i hi
    simp only [l0, r0, hl i hi, hr i hi]
    split_ifs <;> simp

/-- **C45** Shallow-water flux along x1: mirror-symmetric, provided both sides of the face have the same volume element. -/
theorem C45_shallow_i_mirror (l r : SideSW) (hG : l.sqrtG = r.sqrtG) (i : Nat) :
    let m : SideSW → SideSW := fun s => ⟨mirror 0 s.var, s.sqrtG, mirrorMetric 0 s.H⟩
    (ausmSWI (m r) (m l)).1 i = -sign 0 i * (ausmSWI l r).1 i ∧ (ausmSWI (m r) (m l)).2 = (ausmSWI (m r) (m l)).1 := by
  intro m
  refine ⟨?_, rfl⟩
  have h0 : ∀ s, (m s).var 0 = s.var 0 := by intro s; simp [m, mirror, sign]
  have h1 : ∀ s, (m s).var 1 = -s.var 1 := by intro s; simp [m, mirror, sign]
  have hi : ∀ s, (m s).var i = sign 0 i * s.var i := fun s => rfl
  have hH0 : ∀ s, (m s).H 0 0 = s.H 0 0 := by intro s; simp [m, mirrorMetric]
  have hH1 : ∀ s, (m s).H 1 0 = -s.H 1 0 := by intro s; simp [m, mirrorMetric]
  have hs : ∀ s, (m s).sqrtG = s.sqrtG := fun s => rfl
  have hm : ∀ s : SideSW, ∀ t : ℝ, (if t ≠ 0 then -s.var 1 / t else 0) = -(if t ≠ 0 then s.var 1 / t else 0) := by
    intro s t; split_ifs <;> ring
  simp only [ausmSWI, h0, h1, hi, hH0, hH1, hs, hm]
  generalize Real.sqrt (gravity * l.var 0 * l.H 0 0) = al
  generalize Real.sqrt (gravity * r.var 0 * r.H 0 0) = ar
  generalize (if l.var 0 * al ≠ 0 then l.var 1 / (l.var 0 * al) else 0) = ml
  generalize (if r.var 0 * ar ≠ 0 then r.var 1 / (r.var 0 * ar) else 0) = mr
  have e : (0.25 : ℝ) * ((-mr + 1) ^ 2 - (-ml - 1) ^ 2) = -(0.25 * ((ml + 1) ^ 2 - (mr - 1) ^ 2)) := by ring
  rw [e]
  generalize (0.25 : ℝ) * ((ml + 1) ^ 2 - (mr - 1) ^ 2) = M
  have e1 : max 0 (-M) = -min 0 M := by rcases le_total 0 M with h | h <;> simp [h]
  have e2 : min 0 (-M) = -max 0 M := by rcases le_total 0 M with h | h <;> simp [h]
  rw [e1, e2, hG]
  unfold sign
  by_cases c1 : i = 1
  · subst c1; norm_num; ring
  · by_cases c2 : i = 2
    · subst c2; norm_num; ring
    · have c1' : ¬ i = 0 + 1 := by omega
      simp only [c1, c2, c1', if_false]; ring

/-- **C45** Shallow-water flux along x2: mirror-symmetric, and infinite for the reflected problem exactly when it is for the original. -/
theorem C45_shallow_j_mirror (l r : SideSW) (hG : l.sqrtG = r.sqrtG) :
    let m : SideSW → SideSW := fun s => ⟨mirror 1 s.var, s.sqrtG, mirrorMetric 1 s.H⟩
    (ausmSWJ l r = none ↔ ausmSWJ (m r) (m l) = none) ∧
    ∀ F F', ausmSWJ l r = some F → ausmSWJ (m r) (m l) = some F' → F'.2 = F'.1 ∧ ∀ i, F'.1 i = -sign 1 i * F.1 i := by
  intro m
  have h0 : ∀ s, (m s).var 0 = s.var 0 := by intro s; simp [m, mirror, sign]
  have h2 : ∀ s, (m s).var 2 = -s.var 2 := by intro s; simp [m, mirror, sign]
  have hH0 : ∀ s, (m s).H 0 1 = -s.H 0 1 := by intro s; simp [m, mirrorMetric]
  have hH1 : ∀ s, (m s).H 1 1 = s.H 1 1 := by intro s; simp [m, mirrorMetric]
  have hs : ∀ s, (m s).sqrtG = s.sqrtG := fun s => rfl
  have hm : ∀ s, machSWJ (m s) = (machSWJ s).map (fun x => -x) := by
    intro s
    simp only [machSWJ, h0, h2, hH1, neg_eq_zero]
    split_ifs <;> simp [neg_div]
  constructor
  · unfold ausmSWJ
    rw [hm, hm]
    rcases machSWJ l with _ | ml <;> rcases machSWJ r with _ | mr <;> simp
  · intro F F' hF hF'
    unfold ausmSWJ at hF hF'
    rw [hm, hm] at hF'
    rcases hl : machSWJ l with _ | ml <;> rcases hr : machSWJ r with _ | mr <;> rw [hl, hr] at hF hF' <;>
      simp only [Option.map_some, Option.map_none, Option.some.injEq, reduceCtorEq] at hF hF'
    subst hF hF'
    refine ⟨rfl, ?_⟩
    intro i
    have hi : ∀ s, (m s).var i = sign 1 i * s.var i := fun s => rfl
    simp only [h0, hi, hH0, hH1, hs]
    have e : (0.25 : ℝ) * ((-mr + 1) ^ 2 - (-ml - 1) ^ 2) = -(0.25 * ((ml + 1) ^ 2 - (mr - 1) ^ 2)) := by ring
    rw [e]
    generalize (0.25 : ℝ) * ((ml + 1) ^ 2 - (mr - 1) ^ 2) = M
    have e1 : max 0 (-M) = -min 0 M := by rcases le_total 0 M with h | h <;> simp [h]
    have e2 : min 0 (-M) = -max 0 M := by rcases le_total 0 M with h | h <;> simp [h]
    rw [e1, e2, hG]
    unfold sign
    by_cases c1 : i = 1
    · subst c1; norm_num; ring
    · by_cases c2 : i = 2
      · subst c2; norm_num; ring
      · have c2' : ¬ i = 1 + 1 := by omega
        simp only [c1, c2, c2', if_false]; ring

/-- **C45** Shallow-water faces: both sides receive the same flux. -/
theorem C45_shallow_single_valued (N : Nat) (sides : Nat → Bool → SideSW) (old : Nat → Bool → Nat → ℝ) (f : Nat) (hf : f ≤ N) :
    faces N ausmSWI sides old (f + 1) false = faces N ausmSWI sides old f true ∧
      ∀ F, ausmSWJ (sides f true) (sides (f + 1) false) = some F → F.2 = F.1 := by
  have : 1 ≤ f + 1 ∧ f + 1 ≤ N + 1 := by omega
  refine ⟨by simp only [faces, this, hf, if_true, and_self, Nat.add_sub_cancel]; rfl, ?_⟩
  intro F hF
  unfold ausmSWJ at hF
  rcases h1 : machSWJ (sides f true) with _ | ml <;> rcases h2 : machSWJ (sides (f + 1) false) with _ | mr <;> rw [h1, h2] at hF <;>
    simp only [Option.some.injEq, reduceCtorEq] at hF
  subst hF
  rfl

/-! ## Bottom and top of the 3D model -/

theorem pressure3_pos (x : ℝ) : 0 < pressure3 x := by
  unfold pressure3 p0
  have := Real.exp_pos (cpd / cvd * Real.log (x * (Rd / 100000)))
  positivity

/-- the two outermost faces of a vertical line: the same state on both sides, opposite velocities -/
theorem fullX3_bottom (nz : Nat) (hz : 0 < nz) (q : Nat → Bool → Nat → ℝ) :
    fullX3 nz q 0 true = q 0 false ∧ fullX3 nz q 1 false = q 0 false := by
  have h1 : (1 : Nat) ≠ nz + 1 := by omega
  have h2 : 1 ≤ nz := hz
  have h3 : (0 : Nat) ≠ nz + 1 := by omega
  have h4 : ¬ nz = 0 := by omega
  simp [fullX3, put, h1, h2, h3, h4]

theorem fullX3_top (nz : Nat) (hz : 0 < nz) (q : Nat → Bool → Nat → ℝ) :
    fullX3 nz q nz true = q (nz - 1) true ∧ fullX3 nz q (nz + 1) false = q (nz - 1) true := by
  have h1 : nz ≠ nz + 1 := by omega
  have h2 : 1 ≤ nz := hz
  have h4 : ¬ nz = 0 := by omega
  simp [fullX3, put, h2, h4]

theorem fullX3_mid (nz : Nat) (q : Nat → Bool → Nat → ℝ) (p : Nat) (hp : 1 ≤ p) (hp' : p ≤ nz) (s : Bool) : fullX3 nz q p s = q (p - 1) s := by
  have h1 : p ≠ nz + 1 := by omega
  have h2 : p ≠ 0 := by omega
  simp [fullX3, put, h1, h2, hp, hp']

theorem wItf_bottom (nz : Nat) (hz : 0 < nz) (a : Nat → Bool → Nat → ℝ) : wItf nz a 0 true = -wItf nz a 1 false := by
  have h4 : ¬ nz = 0 := by omega
  simp [wItf, put, h4]

theorem wItf_top (nz : Nat) (hz : 0 < nz) (a : Nat → Bool → Nat → ℝ) : wItf nz a (nz + 1) false = -wItf nz a nz true := by
  have h4 : ¬ nz = 0 := by omega
  simp [wItf, put, h4]

theorem wItf_mid (nz : Nat) (a : Nat → Bool → Nat → ℝ) (p : Nat) (hp : 1 ≤ p) (hp' : p ≤ nz) (s : Bool) : wItf nz a p s = a p s 3 / a p s 0 := by
  have h1 : p ≠ nz + 1 := by omega
  have h2 : p ≠ 0 := by omega
  simp [wItf, put, h1, h2]

/-- a wall: equal states, opposite velocities and the same metric on both sides -/
theorem wall (adv : Bool) (d u : Side3) (hq : d.var = u.var) (hp : d.pres = u.pres) (hv : d.vel = -u.vel) (hG : d.sqrtG = u.sqrtG)
    (hh : d.h = u.h) (i : Nat) :
    (rusanovVert adv d u).1.flux i = (if 1 ≤ i ∧ i ≤ 3 then d.sqrtG * d.h 2 (i - 1) * d.pres else 0) ∧
      (rusanovVert adv d u).1.wadv = 0 := by
  have h1 := rusanov_flux 2 (by norm_num) adv d u i
  have h2 := (rusanov_wadv 2 (by norm_num) adv d u).1
  have e : rusanov 2 = rusanovVert := by simp [rusanov]
  rw [e] at h1 h2
  rw [h1, h2, hq, hv, hG]
  unfold pp
  rw [hp, hG, hh]
  constructor
  · split_ifs <;> ring
  · ring

/-- **C46** 3D model, every number of levels, every state, every metric that has one value per face: through the bottom and
through the top there is no flux of density, potential temperature or any tracer, nor any advective flux of vertical momentum; the
momenta receive the pressure at the boundary only. -/
theorem C46_no_flux (nz : Nat) (hz : 0 < nz) (adv : Bool) (sqrtG : Nat → Bool → ℝ) (h : Nat → Bool → Nat → Nat → ℝ)
    (hG : ∀ f ≤ nz, sqrtG f true = sqrtG (f + 1) false) (hh : ∀ f ≤ nz, h f true = h (f + 1) false)
    (old : Nat → Bool → Out3) (q : Nat → Bool → Nat → ℝ) :
    (∀ i, (riemannX3 nz adv sqrtG h old q 0 false).flux i =
      if 1 ≤ i ∧ i ≤ 3 then sqrtG 1 false * h 1 false 2 (i - 1) * pressure3 (q 0 false 4) else 0) ∧
    (∀ i, (riemannX3 nz adv sqrtG h old q (nz - 1) true).flux i =
      if 1 ≤ i ∧ i ≤ 3 then sqrtG nz true * h nz true 2 (i - 1) * pressure3 (q (nz - 1) true 4) else 0) ∧
    (riemannX3 nz adv sqrtG h old q 0 false).wadv = 0 ∧ (riemannX3 nz adv sqrtG h old q (nz - 1) true).wadv = 0 := by
  obtain ⟨b1, b2⟩ := fullX3_bottom nz hz q
  obtain ⟨t1, t2⟩ := fullX3_top nz hz q
  have e2 : ∀ d u, (rusanovVert adv d u).2.flux = (rusanovVert adv d u).1.flux := fun _ _ => rfl
  have e3 : ∀ d u, (rusanovVert adv d u).2.wadv = (rusanovVert adv d u).1.wadv := fun _ _ => rfl
  have hn : nz - 1 + 1 = nz := by omega
  have w1 := wall adv ⟨fullX3 nz q 0 true, pressure3 (fullX3 nz q 0 true 4), wItf nz (fullX3 nz q) 0 true, sqrtG 0 true, h 0 true⟩
    ⟨fullX3 nz q 1 false, pressure3 (fullX3 nz q 1 false 4), wItf nz (fullX3 nz q) 1 false, sqrtG 1 false, h 1 false⟩
    (by rw [b1, b2]) (by rw [b1, b2]) (wItf_bottom nz hz _) (hG 0 (by omega)) (hh 0 (by omega))
  have w2 := wall adv ⟨fullX3 nz q nz true, pressure3 (fullX3 nz q nz true 4), wItf nz (fullX3 nz q) nz true, sqrtG nz true, h nz true⟩
    ⟨fullX3 nz q (nz + 1) false, pressure3 (fullX3 nz q (nz + 1) false 4), wItf nz (fullX3 nz q) (nz + 1) false, sqrtG (nz + 1) false, h (nz + 1) false⟩
    (by rw [t1, t2]) (by rw [t1, t2]) (by rw [wItf_top nz hz]; simp) (hG nz le_rfl) (hh nz le_rfl)
  have c1 : 1 ≤ 0 + 1 ∧ 0 + 1 ≤ nz + 1 := by omega
  simp only [riemannX3, faces, hn, le_refl, if_true, c1, and_self, Nat.zero_add, Nat.sub_self, e2, e3]
  refine ⟨fun i => ?_, fun i => ?_, (w1 0).2, (w2 0).2⟩
  · rw [(w1 i).1, hG 0 (by omega), hh 0 (by omega), b1]
  · rw [(w2 i).1, t1]

/-- **C46** At the bottom and at the top the pressure part of the vertical momentum flux is the metric factor alone. -/
theorem C46_wpres (nz : Nat) (hz : 0 < nz) (adv : Bool) (sqrtG : Nat → Bool → ℝ) (h : Nat → Bool → Nat → Nat → ℝ)
    (hG : ∀ f ≤ nz, sqrtG f true = sqrtG (f + 1) false) (hh : ∀ f ≤ nz, h f true = h (f + 1) false)
    (old : Nat → Bool → Out3) (q : Nat → Bool → Nat → ℝ) :
    (riemannX3 nz adv sqrtG h old q 0 false).wpres = sqrtG 1 false * h 1 false 2 2 ∧
      (riemannX3 nz adv sqrtG h old q (nz - 1) true).wpres = sqrtG nz true * h nz true 2 2 := by
  obtain ⟨b1, b2⟩ := fullX3_bottom nz hz q
  obtain ⟨t1, t2⟩ := fullX3_top nz hz q
  have hn : nz - 1 + 1 = nz := by omega
  have c1 : 1 ≤ 0 + 1 ∧ 0 + 1 ≤ nz + 1 := by omega
  have h1 := hG 0 (by omega)
  have h2 := hh 0 (by omega)
  have h3 := hG nz le_rfl
  have h4 := hh nz le_rfl
  simp only [Nat.zero_add] at h1 h2
  simp only [riemannX3, faces, hn, le_refl, if_true, c1, and_self, Nat.zero_add, Nat.sub_self, rusanovVert, b1, b2, t1, t2, h1, h2, ← h3, ← h4]
  have p1 := (pressure3_pos (q 0 false 4)).ne'
  have p2 := (pressure3_pos (q (nz - 1) true 4)).ne'
  constructor <;> rw [div_eq_iff (by assumption)] <;> ring

example : ∃ (sqrtG : Nat → Bool → ℝ) (h : Nat → Bool → Nat → Nat → ℝ) (q : Nat → Bool → Nat → ℝ),
    (∀ f ≤ 2, sqrtG f true = sqrtG (f + 1) false) ∧ (∀ f ≤ 2, h f true = h (f + 1) false) ∧ sqrtG 0 true ≠ sqrtG 1 true ∧
      q 0 false 3 ≠ 0 :=
  ⟨fun p s => if s then (p : ℝ) + 1 else p, fun _ _ _ _ => 1, fun _ _ _ => 1,
    by intro f _; push_cast; simp, fun _ _ => rfl, by norm_num, by norm_num⟩

/-- **C45** Inside the column, the faces between elements: both elements receive the same flux. -/
theorem C45_column_single_valued (nz : Nat) (adv : Bool) (sqrtG : Nat → Bool → ℝ) (h : Nat → Bool → Nat → Nat → ℝ)
    (old : Nat → Bool → Out3) (q : Nat → Bool → Nat → ℝ) (e : Nat) (he : e + 1 < nz) :
    (riemannX3 nz adv sqrtG h old q (e + 1) false).flux = (riemannX3 nz adv sqrtG h old q e true).flux := by
  have h1 : e + 1 ≤ nz := by omega
  have h2 : 1 ≤ e + 1 + 1 ∧ e + 1 + 1 ≤ nz + 1 := by omega
  simp only [riemannX3, faces, h1, h2, if_true, and_self, Nat.add_sub_cancel]
  rfl

/-- **C45** Inside a horizontal line of the 3D model, both elements of a face receive the same flux. -/
theorem C45_line_single_valued (d nx : Nat) (adv : Bool) (sqrtG : Nat → Bool → ℝ) (h : Nat → Bool → Nat → Nat → ℝ)
    (old : Nat → Bool → Out3) (q : Nat → Bool → Nat → ℝ) (first last : Nat → ℝ) (e : Nat) (he : e + 1 < nx) :
    (riemannHori d nx adv sqrtG h old q first last (e + 1) false).flux = (riemannHori d nx adv sqrtG h old q first last e true).flux :=
  (C45_rusanov_single_valued d nx adv _ old (e + 1) (by omega)).1

/-- **C45** A horizontal line of the 3D model in a uniform state: on both sides of every element the flux is the physical flux of that
state along the line, with the pressure of the equation of state, for elements next to the halo too. -/
theorem C45_line_consistent (d nx : Nat) (hd : d < 2) (adv : Bool) (sqrtG : Nat → Bool → ℝ) (h : Nat → Bool → Nat → Nat → ℝ)
    (hG : ∀ f ≤ nx, sqrtG f true = sqrtG (f + 1) false) (hh : ∀ f ≤ nx, h f true = h (f + 1) false)
    (old : Nat → Bool → Out3) (u : Nat → ℝ) (e : Nat) (he : e < nx) (side : Bool) (i : Nat) :
    (riemannHori d nx adv sqrtG h old (fun _ _ => u) u u e side).flux i =
      euler3 d (sqrtG (e + 1) side) (h (e + 1) side) (pressure3 (u 4)) u i := by
  have fu : ∀ p s, (p ≠ 0 ∨ s = true) → (p ≤ nx ∨ p = nx + 1 ∧ s = false) → fullHori nx (fun _ _ => u) u u p s = u := by
    intro p s h1 h2
    simp only [fullHori, put]
    have h3 : ¬ (1 ≤ p ∧ p ≤ nx) → (p = nx + 1 ∧ s = false) ∨ (p = 0 ∧ s = true) := by
      intro h
      rcases h1 with h1 | h1 <;> rcases h2 with h2 | h2
      · omega
      · exact .inl h2
      · exact .inr ⟨by omega, h1⟩
      · exact .inl h2
    split_ifs with a b c
    · rfl
    · rfl
    · rfl
    · exact absurd (h3 c) (by tauto)
  cases side with
  | true =>
    have h1 : e + 1 ≤ nx := by omega
    simp only [riemannHori, faces, h1, if_true]
    rw [fu (e + 1) true (Or.inr rfl) (Or.inl h1), fu (e + 1 + 1) false (Or.inl (by omega))
      (by by_cases h2 : e + 1 + 1 ≤ nx; exact .inl h2; exact .inr ⟨by omega, rfl⟩), ← hG _ h1, ← hh _ h1]
    exact (C45_rusanov_consistent d (by omega) adv ⟨u, pressure3 (u 4), u (d + 1) / u 0, _, _⟩ rfl i).1
  | false =>
    have h1 : 1 ≤ e + 1 ∧ e + 1 ≤ nx + 1 := by omega
    simp only [riemannHori, faces, h1, and_self, if_true, Nat.add_sub_cancel]
    rw [fu e true (Or.inr rfl) (Or.inl (by omega)), fu (e + 1) false (Or.inl (by omega)) (Or.inl (by omega)), hG e (by omega), hh e (by omega)]
    exact (C45_rusanov_consistent d (by omega) adv ⟨u, pressure3 (u 4), u (d + 1) / u 0, _, _⟩ rfl i).2

/-- **C45** The same inside a column: at a face between two elements the flux of a uniform state is the physical flux. -/
theorem C45_column_consistent (nz : Nat) (adv : Bool) (sqrtG : Nat → Bool → ℝ) (h : Nat → Bool → Nat → Nat → ℝ)
    (hG : ∀ f ≤ nz, sqrtG f true = sqrtG (f + 1) false) (hh : ∀ f ≤ nz, h f true = h (f + 1) false)
    (old : Nat → Bool → Out3) (u : Nat → ℝ) (e : Nat) (he : e + 1 < nz) (i : Nat) :
    (riemannX3 nz adv sqrtG h old (fun _ _ => u) e true).flux i =
      euler3 2 (sqrtG (e + 1) true) (h (e + 1) true) (pressure3 (u 4)) u i := by
  have h1 : e + 1 ≤ nz := by omega
  simp only [riemannX3, faces, h1, if_true]
  rw [fullX3_mid nz _ (e + 1) (by omega) h1, fullX3_mid nz _ (e + 1 + 1) (by omega) (by omega), wItf_mid nz _ (e + 1) (by omega) h1,
    wItf_mid nz _ (e + 1 + 1) (by omega) (by omega), fullX3_mid nz _ (e + 1) (by omega) h1,
    fullX3_mid nz _ (e + 1 + 1) (by omega) (by omega), ← hG _ h1, ← hh _ h1]
  have := (C45_rusanov_consistent 2 (by omega) adv ⟨u, pressure3 (u 4), u 3 / u 0, sqrtG (e + 1) true, h (e + 1) true⟩ rfl i).1
  simpa [rusanov] using this

/-- one node of the interface array of an element: the first half of the entries is the `false` side, the second half the `true` side -/
noncomputable def itfEntry (nn : Nat) (F : Nat → Bool → ℝ) (l : Nat) : ℝ := if l < nn then F l false else F (l - nn) true

open WxVerif.Dfr WxVerif.Quad WxVerif.Props.Conservation in
/-- **C46** Consequence for the whole tile, by C43: with the fluxes of the 3D model, in the total of density, potential temperature or a
tracer over the tile only the faces shared with the lateral neighbours count; nothing enters or leaves through bottom and top. -/
theorem C46_tile_budget {n : Nat} (hn : 1 ≤ n) {xs ws : List ℝ} (hq : IsGaussRule n xs ws) (nz ny nx : Nat) (hz : 0 < nz) (hy : 0 < ny)
    (hx : 0 < nx) (adv : Bool) (G f1 f2 f3 : Nat → Nat → Nat → Nat → ℝ) (hG0 : ∀ ek ej ei c, G ek ej ei c ≠ 0)
    (sg1 sg2 sg3 : Nat → Nat → Nat → Nat → Bool → ℝ) (h1 h2 h3 : Nat → Nat → Nat → Nat → Bool → Nat → Nat → ℝ)
    (hG : ∀ ej ei l, ∀ f ≤ nz, sg3 ej ei l f true = sg3 ej ei l (f + 1) false)
    (hh : ∀ ej ei l, ∀ f ≤ nz, h3 ej ei l f true = h3 ej ei l (f + 1) false)
    (old : Nat → Bool → Out3) (q1 q2 q3 : Nat → Nat → Nat → Nat → Bool → Nat → ℝ) (w e s nn : Nat → Nat → Nat → Nat → ℝ)
    (v : Nat) (hv : ¬ (1 ≤ v ∧ v ≤ 3)) :
    let F1 : Nat → Nat → Nat → Nat → ℝ := fun ek ej ei => itfEntry (n * n) fun l side =>
      (riemannHori 0 nx adv (sg1 ek ej l) (h1 ek ej l) old (q1 ek ej l) (w ek ej l) (e ek ej l) ei side).flux v
    let F2 : Nat → Nat → Nat → Nat → ℝ := fun ek ej ei => itfEntry (n * n) fun l side =>
      (riemannHori 1 ny adv (sg2 ek ei l) (h2 ek ei l) old (q2 ek ei l) (s ek ei l) (nn ek ei l) ej side).flux v
    let F3 : Nat → Nat → Nat → Nat → ℝ := fun ek ej ei => itfEntry (n * n) fun l side =>
      (riemannX3 nz adv (sg3 ej ei l) (h3 ej ei l) old (q3 ej ei l) ek side).flux v
    ∑ ek ∈ Finset.range nz, ∑ ej ∈ Finset.range ny, ∑ ei ∈ Finset.range nx, elemSum3 n (arr ws) (fun c => G ek ej ei c *
        rhsSphere3d n (arr xs) (fun c => 1 / G ek ej ei c) (f1 ek ej ei) (f2 ek ej ei) (f3 ek ej ei)
          (F1 ek ej ei) (F2 ek ej ei) (F3 ek ej ei) c) =
      -((∑ ek ∈ Finset.range nz, ∑ ej ∈ Finset.range ny, ∑ l ∈ Finset.range (n * n), arr ws (l / n) * arr ws (l % n) *
          (F1 ek ej (nx - 1) (n * n + l) - F1 ek ej 0 l))
      + ∑ ek ∈ Finset.range nz, ∑ ei ∈ Finset.range nx, ∑ l ∈ Finset.range (n * n), arr ws (l / n) * arr ws (l % n) *
          (F2 ek (ny - 1) ei (n * n + l) - F2 ek 0 ei l)) := by
  intro F1 F2 F3
  have hi : ∀ (F : Nat → Bool → ℝ) (l : Nat), l < n * n → itfEntry (n * n) F l = F l false ∧ itfEntry (n * n) F (n * n + l) = F l true := by
    intro F l hl
    have : ¬ (n * n + l < n * n) := by omega
    simp [itfEntry, hl]
  rw [C43_budget_3d hn hq nz ny nx hz hy hx G f1 f2 f3 F1 F2 F3 hG0
    (fun ek ej ei he l hl => by
      simp only [F1]
      rw [(hi _ l hl).1, (hi _ l hl).2, C45_line_single_valued 0 nx adv _ _ old _ _ _ ei he])
    (fun ek ej ei he l hl => by
      simp only [F2]
      rw [(hi _ l hl).1, (hi _ l hl).2, C45_line_single_valued 1 ny adv _ _ old _ _ _ ej he])
    (fun ek ej ei he l hl => by
      simp only [F3]
      rw [(hi _ l hl).1, (hi _ l hl).2, C45_column_single_valued nz adv _ _ old _ ek he])]
  have z : ∑ ej ∈ Finset.range ny, ∑ ei ∈ Finset.range nx, ∑ l ∈ Finset.range (n * n), arr ws (l / n) * arr ws (l % n) *
          (F3 (nz - 1) ej ei (n * n + l) - F3 0 ej ei l) = 0 := by
    apply Finset.sum_eq_zero; intro ej _
    apply Finset.sum_eq_zero; intro ei _
    apply Finset.sum_eq_zero; intro l hl
    have hl := Finset.mem_range.mp hl
    have c := C46_no_flux nz hz adv (sg3 ej ei l) (h3 ej ei l) (hG ej ei l) (hh ej ei l) old (q3 ej ei l)
    simp only [F3]
    rw [(hi _ l hl).1, (hi _ l hl).2, c.1 v, c.2.1 v, if_neg hv, if_neg hv]
    ring
  rw [z, add_zero]

end WxVerif.Props.Flux
