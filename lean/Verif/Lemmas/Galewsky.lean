import Verif.Model.Galewsky
import Verif.Spec.ZonalJet
import Verif.Lemmas.GaussPanels
import Mathlib.Analysis.SpecialFunctions.SmoothTransition
import Mathlib.Analysis.SpecialFunctions.Trigonometric.Deriv
import Mathlib.Analysis.SpecialFunctions.Trigonometric.ArctanDeriv
import Mathlib.Analysis.Calculus.ContDiff.Operations
import Mathlib.Tactic.Positivity
import Mathlib.Tactic.NormNum

/-!
# Lemmas about the barotropic jet
-/

namespace WxVerif.Galewsky

open WxVerif.Sphere WxVerif.Flux WxVerif.Spec.ZonalJet
open Real Set

theorem edges : 0 < π / 7 ∧ π / 7 < π / 2 - π / 7 ∧ π / 2 - π / 7 < π / 2 := by
  have := pi_pos
  refine ⟨by positivity, by linarith, by linarith⟩

theorem inside_iff (φ : ℝ) : (π / 7 < φ ∧ φ < π / 2 - π / 7) ↔ 0 < (φ - π / 7) * (π / 2 - π / 7 - φ) := by
  obtain ⟨h0, h1, h2⟩ := edges
  constructor
  · rintro ⟨a, b⟩
    exact mul_pos (by linarith) (by linarith)
  · intro h
    rcases mul_pos_iff.1 h with ⟨a, b⟩ | ⟨a, b⟩
    · exact ⟨by linarith, by linarith⟩
    · exfalso; linarith

theorem jet_eq (φ : ℝ) :
    jet φ = 80 / exp (-4 / ((π / 2 - π / 7) - π / 7) ^ 2) * expNegInvGlue ((φ - π / 7) * (π / 2 - π / 7 - φ)) := by
  unfold jet expNegInvGlue
  by_cases h : π / 7 < φ ∧ φ < π / 2 - π / 7
  · rw [if_pos h, if_neg (not_le.2 ((inside_iff φ).1 h))]
    congr 2
    rw [one_div, ← inv_neg]
    congr 1
    ring
  · rw [if_neg h, if_pos (not_lt.1 fun h' => h ((inside_iff φ).2 h')), mul_zero]

theorem jet_contDiff (n : ℕ∞) : ContDiff ℝ n jet := by
  rw [show jet = _ from funext jet_eq]
  apply ContDiff.mul contDiff_const
  apply expNegInvGlue.contDiff.comp
  fun_prop

theorem jet_zero {φ : ℝ} (h : ¬(π / 7 < φ ∧ φ < π / 2 - π / 7)) : jet φ = 0 := by
  unfold jet; rw [if_neg h]

theorem fall_contDiff (a Ω : ℝ) (n : ℕ∞) : ContDiff ℝ n (fall a Ω jet) := by
  rw [contDiff_iff_contDiffAt]
  intro x
  have hj : ContDiffAt ℝ n jet x := (jet_contDiff n).contDiffAt
  by_cases hc : cos x = 0
  · -- the jet vanishes around a pole
    have ho : IsOpen {y : ℝ | y < π / 7 ∨ π / 2 - π / 7 < y} := by
      exact (isOpen_Iio (a := π / 7)).union (isOpen_Ioi (a := π / 2 - π / 7))
    have hx : x ∈ {y : ℝ | y < π / 7 ∨ π / 2 - π / 7 < y} := by
      by_contra h
      simp only [mem_setOf_eq, not_or, not_lt] at h
      obtain ⟨h0, h1, h2⟩ := edges
      exact (cos_pos_of_mem_Ioo ⟨by linarith [h.1], by linarith [h.2]⟩).ne' hc
    have he : fall a Ω jet =ᶠ[nhds x] fun _ => 0 := by
      filter_upwards [ho.mem_nhds hx] with y hy
      have : jet y = 0 := jet_zero (by rintro ⟨p, q⟩; rcases hy with h | h <;> linarith)
      simp [fall, this]
    exact contDiffAt_const.congr_of_eventuallyEq he
  · unfold fall
    have ht : ContDiffAt ℝ n tan x := Real.contDiffAt_tan.2 hc
    have hs : ContDiffAt ℝ n sin x := contDiff_sin.contDiffAt
    exact ((contDiffAt_const.mul hs).add (hj.mul ht)).mul hj

theorem evalU_eq (lat : ℝ) : evalU lat = if lat = π / 7 ∨ lat = π / 2 - π / 7 then none else some (jet lat) := by
  obtain ⟨h0, h1, h2⟩ := edges
  unfold evalU phi1 phi0
  by_cases ha : lat < π / 7
  · rw [if_pos ha, if_neg (by rintro (h | h) <;> linarith), jet_zero (by rintro ⟨p, q⟩; linarith)]
  rw [if_neg ha]
  by_cases hb : lat > π / 2 - π / 7
  · rw [if_pos hb, if_neg (by rintro (h | h) <;> linarith), jet_zero (by rintro ⟨p, q⟩; linarith)]
  rw [if_neg hb]
  have hz : (lat - π / 7) * (lat - (π / 2 - π / 7)) = 0 ↔ (lat = π / 7 ∨ lat = π / 2 - π / 7) := by
    rw [mul_eq_zero, sub_eq_zero, sub_eq_zero]
  by_cases hc : lat = π / 7 ∨ lat = π / 2 - π / 7
  · rw [if_pos hc]
    show (if _ then _ else _) = _
    rw [if_pos (hz.2 hc)]
  · rw [if_neg hc]
    show (if _ then _ else _) = _
    rw [if_neg (fun h => hc (hz.1 h))]
    rw [not_or] at hc
    unfold jet
    rw [if_pos ⟨lt_of_le_of_ne (not_lt.1 ha) (Ne.symm hc.1), lt_of_le_of_ne (not_lt.1 hb) hc.2⟩]

theorem term_some {a Ω x y : ℝ} (h : term a Ω x = some y) : y = fall a Ω jet x := by
  unfold term at h
  rw [evalU_eq] at h
  split_ifs at h
  · simp at h
  · simp only [Option.map_some, Option.some.injEq] at h
    exact h.symm

/-- what the loops compute, when no node is an edge of the jet -/
theorem foldlM_sum {α : Type} (t : α → Option ℝ) (f : α → ℝ) (ht : ∀ x y, t x = some y → y = f x) (l : List α) :
    ∀ acc r, l.foldlM (fun acc x => (t x).map (acc + ·)) acc = some r → r = acc + (l.map f).sum := by
  induction l with
  | nil => intro acc r h; simp at h; simp [h]
  | cons x l ih =>
    intro acc r h
    rw [List.foldlM_cons] at h
    cases hx : t x with
    | none => rw [hx] at h; simp at h
    | some y =>
      rw [hx] at h
      have h' : l.foldlM (fun acc x => (t x).map (acc + ·)) (acc + y) = some r := h
      rw [ih _ _ h', ht x y hx, List.map_cons, List.sum_cons]
      ring

theorem outer_sum (t : Nat → ℝ → Option ℝ) (f : Nat → ℝ → ℝ) (ht : ∀ k m y, t k m = some y → y = f k m) (l : List Nat) :
    ∀ acc r, l.foldlM (fun acc k => [(-1 : ℝ), 1].foldlM (fun acc m => (t k m).map (acc + ·)) acc) acc = some r →
      r = acc + (l.map fun k => f k (-1) + f k 1).sum := by
  induction l with
  | nil => intro acc r h; simp at h; simp [h]
  | cons k l ih =>
    intro acc r h
    rw [List.foldlM_cons] at h
    cases hx : [(-1 : ℝ), 1].foldlM (fun acc m => (t k m).map (acc + ·)) acc with
    | none => rw [hx] at h; simp at h
    | some y =>
      rw [hx] at h
      have h1 := foldlM_sum (t k) (f k) (ht k) _ _ _ hx
      rw [ih _ _ h, h1]
      simp only [List.map_cons, List.map_nil, List.sum_cons, List.sum_nil]
      ring

theorem foldlM_none {α : Type} (g : ℝ → α → Option ℝ) (l : List α) :
    ∀ acc, l.foldlM g acc = none → ∃ x ∈ l, ∃ acc, g acc x = none := by
  induction l with
  | nil => intro acc h; simp at h
  | cons x l ih =>
    intro acc h
    rw [List.foldlM_cons] at h
    cases hx : g acc x with
    | none => exact ⟨x, List.mem_cons_self, acc, hx⟩
    | some y =>
      rw [hx] at h
      obtain ⟨z, hz, h2⟩ := ih _ h
      exact ⟨z, List.mem_cons_of_mem _ hz, h2⟩

theorem term_none {a Ω x : ℝ} : term a Ω x = none ↔ (x = π / 7 ∨ x = π / 2 - π / 7) := by
  unfold term
  rw [evalU_eq]
  split_ifs with h <;> simp [h]

theorem integrand_none {a Ω lat : ℝ} (h : hIntegrand a Ω lat = none) :
    ∃ k < nIntervals lat, ∃ m : ℝ, (m = -1 ∨ m = 1) ∧ (dXeval lat k m = π / 7 ∨ dXeval lat k m = π / 2 - π / 7) := by
  obtain ⟨k, hk, acc, h1⟩ := foldlM_none _ _ _ h
  obtain ⟨m, hm, acc', h2⟩ := foldlM_none _ _ _ h1
  refine ⟨k, List.mem_range.1 hk, m, by simpa using hm, ?_⟩
  rw [Option.map_eq_none_iff] at h2
  exact term_none.1 h2

theorem nIntervals_pos (lat : ℝ) : 0 < nIntervals lat := by
  show 0 < if _ < 1 then 1 else _
  split_ifs <;> omega

/-- the intervals are not longer than two hundredths -/
theorem width_le {lat : ℝ} (h : -(π / 2) ≤ lat) : 0 ≤ (lat + 0.5 * π) / nIntervals lat ∧ (lat + 0.5 * π) / nIntervals lat ≤ 0.02 := by
  have hn : (0 : ℝ) < nIntervals lat := by exact_mod_cast nIntervals_pos lat
  have h0 : 0 ≤ lat + 0.5 * π := by linarith
  refine ⟨by positivity, ?_⟩
  rw [div_le_iff₀ hn]
  have h1 := Nat.lt_floor_add_one ((lat + 0.5 * π) / 0.01)
  rw [div_lt_iff₀ (by norm_num)] at h1
  have hd : nIntervals lat = if ⌊(lat + 0.5 * π) / 0.01⌋₊ < 1 then 1 else ⌊(lat + 0.5 * π) / 0.01⌋₊ := rfl
  rw [hd]
  split_ifs with h2
  · have : ⌊(lat + 0.5 * π) / 0.01⌋₊ = 0 := by omega
    rw [this] at h1
    push_cast at *
    linarith
  · have : (1 : ℝ) ≤ ⌊(lat + 0.5 * π) / 0.01⌋₊ := by exact_mod_cast not_lt.1 h2
    linarith

theorem sph_of_cart {θ φ r : ℝ} (h1 : θ ∈ Ioc (-π) π) (h2 : φ ∈ Ioo (-(π / 2)) (π / 2)) (hr : 0 < r) :
    cart2sph (sph2cart θ φ r) = (if θ < 0 then θ + 2 * π else θ, φ, r) := by
  have hc : 0 < r * cos φ := mul_pos hr (cos_pos_of_mem_Ioo h2)
  have hh : hypot (r * cos φ * cos θ) (r * cos φ * sin θ) = r * cos φ := by
    unfold hypot
    rw [show (r * cos φ * cos θ) ^ 2 + (r * cos φ * sin θ) ^ 2 = (r * cos φ) ^ 2 by
      linear_combination (r * cos φ) ^ 2 * (sin_sq_add_cos_sq θ), sqrt_sq hc.le]
  have hh2 : hypot (r * cos φ) (r * sin φ) = r := by
    unfold hypot
    rw [show (r * cos φ) ^ 2 + (r * sin φ) ^ 2 = r ^ 2 by linear_combination r ^ 2 * (sin_sq_add_cos_sq φ), sqrt_sq hr.le]
  have ha : ∀ {s t : ℝ}, 0 < s → t ∈ Ioc (-π) π → atan2 (s * sin t) (s * cos t) = t := by
    intro s t hs ht
    unfold atan2
    have := Complex.arg_mul_cos_add_sin_mul_I hs ht
    rw [← this]
    congr 1
    apply Complex.ext <;> simp [Complex.cos_ofReal_re, Complex.sin_ofReal_re, this]
  have hφ : φ ∈ Ioc (-π) π := ⟨by linarith [h2.1, pi_pos], by linarith [h2.2, pi_pos]⟩
  simp only [cart2sph, sph2cart, hh, hh2, ha hc h1, ha hr hφ]

end WxVerif.Galewsky
