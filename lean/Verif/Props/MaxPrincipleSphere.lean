import Verif.Spec.MaxPrinciple
import Verif.Props.MaxPrincipleShallow
import Verif.Props.EulerSphere

/-!
# C89, 3D Euler equations: with one solution point per element the density stays positive and no new extremes of the potential
temperature appear
-/

namespace WxVerif.Props.MaxPrincipleSphere

open WxVerif.EulerSphere WxVerif.Topology WxVerif.Sphere WxVerif.Dfr WxVerif.Flux WxVerif.Cube WxVerif.Quad
open WxVerif.ShallowWater (Grid node sgn mirrored_lt)
open WxVerif.ShallowWater.Grid (itfIndex)
open WxVerif.Props.Conservation WxVerif.Props.Operators WxVerif.Props.EulerSphere WxVerif.Spec.MaxPrinciple
open WxVerif.Props.MaxPrinciple (weight_one injOn_one step_exists)

/-- speed of the fastest signal in direction `d` (velocity plus sound) of a state `q`, `h` being the metric coefficient of the direction -/
noncomputable def speed (d : Nat) (h : ℝ) (q : Nat → ℝ) : ℝ := |q (d + 1) / q 0| + Real.sqrt h * soundSpeed (q 0) (q 4)

theorem pressure3_eq {x : ℝ} (hx : 0 < x) : pressure3 x = 100000 * (x * 287.05 / 100000) ^ (1005.46 / 718.41 : ℝ) := by
  unfold pressure3 cvd cpd Rd p0
  rw [Real.rpow_def_of_pos (by positivity)]
  rw [mul_comm (Real.log _)]
  norm_num
  ring_nf

theorem signal_eq {q : Nat → ℝ} (h0 : 0 < q 0) (h4 : 0 < q 4) (d : Nat) (h : ℝ) :
    signal false h q (q (d + 1) / q 0) = speed d h q := by
  simp only [signal, speed, Bool.false_eq_true, if_false, soundSpeed]
  rw [← Real.sqrt_mul' _ (by positivity), pressure3_eq h4]
  congr 2
  unfold heatCapacityRatio cvd cpd Rd
  norm_num
  ring

theorem speed_ge (d : Nat) (h : ℝ) (q : Nat → ℝ) : |q (d + 1) / q 0| ≤ speed d h q := by
  unfold speed soundSpeed
  have := mul_nonneg (Real.sqrt_nonneg h) (Real.sqrt_nonneg (1005.46 / 718.41 * (100000 * (q 4 * 287.05 / 100000) ^ (1005.46 / 718.41 : ℝ)) / q 0))
  linarith

/-- bounds for the flux of a combination of `ρ` and `ρθ` through a face between states `L` and `R` -/
theorem phi3_bounds (d : Nat) {G h : ℝ} (hG : 0 ≤ G) (α β : ℝ) {L R : Nat → ℝ} (l0 : 0 < L 0) (l4 : 0 < L 4) (r0 : 0 < R 0) (r4 : 0 < R 4)
    (hL : 0 ≤ α * L 0 + β * L 4) (hR : 0 ≤ α * R 0 + β * R 4) :
    α * phi3 false G h 0 L R (L (d + 1) / L 0) (R (d + 1) / R 0) + β * phi3 false G h 4 L R (L (d + 1) / L 0) (R (d + 1) / R 0) ≤
      1 / 2 * (G * (L (d + 1) / L 0 + max (speed d h L) (speed d h R))) * (α * L 0 + β * L 4) ∧
    -(α * phi3 false G h 0 L R (L (d + 1) / L 0) (R (d + 1) / R 0) + β * phi3 false G h 4 L R (L (d + 1) / L 0) (R (d + 1) / R 0)) ≤
      1 / 2 * (G * (-(R (d + 1) / R 0) + max (speed d h L) (speed d h R))) * (α * R 0 + β * R 4) := by
  simp only [phi3, signal_eq l0 l4, signal_eq r0 r4]
  set VL := L (d + 1) / L 0
  set VR := R (d + 1) / R 0
  set S := max (speed d h L) (speed d h R)
  have a1 : |VL| ≤ S := le_trans (speed_ge d h L) (le_max_left _ _)
  have a2 : |VR| ≤ S := le_trans (speed_ge d h R) (le_max_right _ _)
  have b1 : 0 ≤ VL + S := by have := neg_abs_le VL; linarith
  have b2 : 0 ≤ S - VR := by have := le_abs_self VR; linarith
  have c1 := mul_nonneg (mul_nonneg hG b1) hL
  have c2 := mul_nonneg (mul_nonneg hG b2) hR
  constructor <;> nlinarith

/-! ## Lines of elements -/

section lines

variable (N : Nat) (G : Nat → Bool → ℝ) (h : Nat → Bool → Nat → Nat → ℝ) (old : Nat → Bool → Out3) (q : Nat → Nat → ℝ) (first last : Nat → ℝ)

/-- the states on the two sides of interface `e` of a horizontal line -/
def before (e : Nat) : Nat → ℝ := if e = 0 then first else q (e - 1)
/-- behind the interface -/
def after (e : Nat) : Nat → ℝ := if e = N then last else q e

theorem full_true {e : Nat} (he : e ≤ N) : fullHori N (fun e _ => q e) first last e true = before q first e := by
  simp only [fullHori, put, before]
  by_cases h0 : e = 0
  · subst h0; simp
  · rw [if_neg (by simp), if_neg (by simp [h0]), if_pos (by omega), if_neg h0]

theorem full_false {e : Nat} (he : e ≤ N) : fullHori N (fun e _ => q e) first last (e + 1) false = after N q last e := by
  simp only [fullHori, put, after]
  by_cases h0 : e = N
  · subst h0; simp
  · rw [if_neg (by simp <;> omega), if_neg (by simp), if_pos (by omega), if_neg h0, Nat.add_sub_cancel]

theorem hori_flux (d : Nat) (hd : d < 2) (hG : ∀ e, G e true = G (e + 1) false) (hh : ∀ e, h e true = h (e + 1) false)
    {v : Nat} (hv : ¬(1 ≤ v ∧ v ≤ 3)) {e : Nat} (he : e < N) (s : Bool) :
    (riemannHori d N false G h old (fun e _ => q e) first last e s).flux v =
      phi3 false (G (if s then e + 1 else e) true) (h (if s then e + 1 else e) true d d) v
        (before q first (if s then e + 1 else e)) (after N q last (if s then e + 1 else e))
        (before q first (if s then e + 1 else e) (d + 1) / before q first (if s then e + 1 else e) 0)
        (after N q last (if s then e + 1 else e) (d + 1) / after N q last (if s then e + 1 else e) 0) := by
  have v1 : v ≠ 1 := by omega
  have v2 : v ≠ 2 := by omega
  have v3 : v ≠ 3 := by omega
  have key : ∀ i, i ≤ N → ∀ A B : Side3, A = ⟨before q first i, pressure3 (before q first i 4), before q first i (d + 1) / before q first i 0, G i true, h i true⟩ →
      B = ⟨after N q last i, pressure3 (after N q last i 4), after N q last i (d + 1) / after N q last i 0, G i true, h i true⟩ →
      (rusanov d false A B).1.flux v = phi3 false (G i true) (h i true d d) v (before q first i) (after N q last i)
        (before q first i (d + 1) / before q first i 0) (after N q last i (d + 1) / after N q last i 0) ∧
      (rusanov d false A B).2.flux v = (rusanov d false A B).1.flux v := by
    intro i hi A B hA hB
    subst hA hB
    rcases (show d = 0 ∨ d = 1 by omega) with rfl | rfl
    · simp only [rusanov, if_true, rusanovHoriI, v1, v2, v3, if_false, phi3, signal, Bool.false_eq_true, and_self]
    · simp only [rusanov, if_true, rusanovHoriJ, v1, v2, v3, if_false, one_ne_zero, phi3, signal, Bool.false_eq_true, and_self]
  have c1 : e + 1 ≤ N := he
  have c2 : 1 ≤ e + 1 ∧ e + 1 ≤ N + 1 := by omega
  cases s
  · simp only [Bool.false_eq_true, if_false, riemannHori, faces, c2, and_self, if_true, Nat.add_sub_cancel]
    rw [(key e he.le _ _ (by rw [full_true N q first last he.le]) (by rw [full_false N q first last he.le, hG, hh])).2]
    exact (key e he.le _ _ (by rw [full_true N q first last he.le]) (by rw [full_false N q first last he.le, hG, hh])).1
  · simp only [if_true, riemannHori, faces, c1]
    exact (key (e + 1) he _ _ (by rw [full_true N q first last he]) (by rw [full_false N q first last he, hG, hh])).1

/-- outflow through the two faces of a horizontal line of elements -/
theorem hori_outflow (d : Nat) (hd : d < 2) (hG : ∀ e, G e true = G (e + 1) false) (hh : ∀ e, h e true = h (e + 1) false)
    (hG0 : ∀ e ≤ N, 0 ≤ G e true) (α β : ℝ)
    (hq : ∀ e < N, 0 < q e 0 ∧ 0 < q e 4 ∧ 0 ≤ α * q e 0 + β * q e 4)
    (hf : 0 < first 0 ∧ 0 < first 4 ∧ 0 ≤ α * first 0 + β * first 4) (hl : 0 < last 0 ∧ 0 < last 4 ∧ 0 ≤ α * last 0 + β * last 4)
    {e : Nat} (he : e < N) :
    (α * (riemannHori d N false G h old (fun e _ => q e) first last e true).flux 0 +
      β * (riemannHori d N false G h old (fun e _ => q e) first last e true).flux 4) -
    (α * (riemannHori d N false G h old (fun e _ => q e) first last e false).flux 0 +
      β * (riemannHori d N false G h old (fun e _ => q e) first last e false).flux 4) ≤
    1 / 2 * (G (e + 1) true * (q e (d + 1) / q e 0 + max (speed d (h (e + 1) true d d) (before q first (e + 1))) (speed d (h (e + 1) true d d) (after N q last (e + 1)))) +
      G e true * (-(q e (d + 1) / q e 0) + max (speed d (h e true d d) (before q first e)) (speed d (h e true d d) (after N q last e)))) *
      (α * q e 0 + β * q e 4) := by
  have hb : ∀ i ≤ N, 0 < before q first i 0 ∧ 0 < before q first i 4 ∧ 0 ≤ α * before q first i 0 + β * before q first i 4 := by
    intro i hi
    unfold before
    split
    · exact hf
    · exact hq _ (by omega)
  have ha : ∀ i ≤ N, 0 < after N q last i 0 ∧ 0 < after N q last i 4 ∧ 0 ≤ α * after N q last i 0 + β * after N q last i 4 := by
    intro i hi
    unfold after
    split
    · exact hl
    · exact hq _ (by omega)
  have e1 : before q first (e + 1) = q e := by simp [before]
  have e2 : after N q last e = q e := by simp [after, he.ne]
  have F0T := hori_flux N G h old q first last d hd hG hh (v := 0) (by omega) he true
  have F4T := hori_flux N G h old q first last d hd hG hh (v := 4) (by omega) he true
  have F0F := hori_flux N G h old q first last d hd hG hh (v := 0) (by omega) he false
  have F4F := hori_flux N G h old q first last d hd hG hh (v := 4) (by omega) he false
  simp only [if_true, Bool.false_eq_true, if_false] at F0T F4T F0F F4F
  rw [F0T, F4T, F0F, F4F]
  have T := (phi3_bounds d (h := h (e + 1) true d d) (hG0 (e + 1) he) α β (hb (e + 1) he).1 (hb (e + 1) he).2.1 (ha (e + 1) he).1 (ha (e + 1) he).2.1
    (hb (e + 1) he).2.2 (ha (e + 1) he).2.2).1
  have F := (phi3_bounds d (h := h e true d d) (hG0 e he.le) α β (hb e he.le).1 (hb e he.le).2.1 (ha e he.le).1 (ha e he.le).2.1
    (hb e he.le).2.2 (ha e he.le).2.2).2
  rw [e1] at T ⊢
  rw [e2] at F ⊢
  linarith

/-- only the states of the elements of the line matter -/
theorem hori_congr {d : Nat} {adv : Bool} {q q' : Nat → Bool → Nat → ℝ} {e : Nat} (he : e < N) {s : Bool}
    (hq : ∀ e < N, ∀ s v, q e s v = q' e s v) :
    riemannHori d N adv G h old q first last e s = riemannHori d N adv G h old q' first last e s := by
  have : fullHori N q first last = fullHori N q' first last := by
    funext p s
    simp only [fullHori, put]
    split_ifs with h1 h2 h3
    · rfl
    · rfl
    · funext v; exact hq _ (by omega) s v
    · rfl
  unfold riemannHori
  rw [this]

/-! ### Columns -/

/-- only the states of the elements of the column matter -/
theorem col_congr {adv : Bool} {q q' : Nat → Bool → Nat → ℝ} {e : Nat} (he : e < N) {s : Bool}
    (hq : ∀ e < N, ∀ s v, q e s v = q' e s v) :
    riemannX3 N adv G h old q e s = riemannX3 N adv G h old q' e s := by
  have : fullX3 N q = fullX3 N q' := by
    have a : (fun p s => if 1 ≤ p ∧ p ≤ N then q (p - 1) s else fun _ => (1 : ℝ)) = fun p s => if 1 ≤ p ∧ p ≤ N then q' (p - 1) s else fun _ => 1 := by
      funext p s
      split_ifs with h1
      · funext v; exact hq _ (by omega) s v
      · rfl
    have b := congrFun (congrFun a 1) false
    beta_reduce at b
    simp only [fullX3, a, b]
  unfold riemannX3
  rw [this]

theorem colFull (nz : Nat) {p : Nat} (h1 : 1 ≤ p) (h2 : p ≤ nz) (s : Bool) : fullX3 nz (fun e _ => q e) p s = q (p - 1) := by
  simp only [fullX3, put]
  rw [if_neg (by simp <;> omega), if_neg (by simp <;> omega), if_neg (by simp <;> omega), if_neg (by simp <;> omega), if_pos (by omega)]

theorem colW (nz : Nat) {p : Nat} (h1 : 1 ≤ p) (h2 : p ≤ nz) (s : Bool) : wItf nz (fullX3 nz (fun e _ => q e)) p s = q (p - 1) 3 / q (p - 1) 0 := by
  simp only [wItf, put]
  rw [if_neg (by simp <;> omega), if_neg (by simp <;> omega), if_neg (by simp <;> omega), if_neg (by simp <;> omega), colFull q nz h1 h2]

theorem col_face (hG : ∀ e, G e true = G (e + 1) false) (hh : ∀ e, h e true = h (e + 1) false) (nz : Nat) {v : Nat} (hv : ¬(1 ≤ v ∧ v ≤ 3))
    {e : Nat} (he : e < nz) (s : Bool) (hin : 0 < (if s then e + 1 else e) ∧ (if s then e + 1 else e) < nz) :
    (riemannX3 nz false G h old (fun e _ => q e) e s).flux v =
      phi3 false (G (if s then e + 1 else e) true) (h (if s then e + 1 else e) true 2 2) v
        (q ((if s then e + 1 else e) - 1)) (q (if s then e + 1 else e))
        (q ((if s then e + 1 else e) - 1) 3 / q ((if s then e + 1 else e) - 1) 0) (q (if s then e + 1 else e) 3 / q (if s then e + 1 else e) 0) := by
  have v1 : v ≠ 1 := by omega
  have v2 : v ≠ 2 := by omega
  have v3 : v ≠ 3 := by omega
  have c1 : e + 1 ≤ nz := he
  have c2 : 1 ≤ e + 1 ∧ e + 1 ≤ nz + 1 := by omega
  cases s
  · simp only [Bool.false_eq_true, if_false] at hin ⊢
    simp only [riemannX3, faces, c2, and_self, if_true, Nat.add_sub_cancel]
    rw [colFull q nz (by omega : 1 ≤ e) (by omega), colFull q nz (by omega : 1 ≤ e + 1) (by omega), colW q nz (by omega : 1 ≤ e) (by omega),
      colW q nz (by omega : 1 ≤ e + 1) (by omega), ← hG, ← hh]
    simp only [rusanovVert, v1, v2, v3, if_false, phi3, signal, Bool.false_eq_true, Nat.add_sub_cancel]
  · simp only [if_true] at hin ⊢
    simp only [riemannX3, faces, c1, if_true]
    rw [colFull q nz (by omega : 1 ≤ e + 1) (by omega), colFull q nz (by omega : 1 ≤ e + 1 + 1) (by omega), colW q nz (by omega : 1 ≤ e + 1) (by omega),
      colW q nz (by omega : 1 ≤ e + 1 + 1) (by omega), ← hG, ← hh]
    simp only [rusanovVert, v1, v2, v3, if_false, phi3, signal, Bool.false_eq_true, Nat.add_sub_cancel]

/-- nothing flows through the bottom and the top -/
theorem col_wall (hG : ∀ e, G e true = G (e + 1) false) (nz : Nat) {v : Nat} (hv : ¬(1 ≤ v ∧ v ≤ 3))
    {e : Nat} (he : e < nz) (s : Bool) (hin : (if s then e + 1 else e) = 0 ∨ (if s then e + 1 else e) = nz) :
    (riemannX3 nz false G h old (fun e _ => q e) e s).flux v = 0 := by
  have v1 : v ≠ 1 := by omega
  have v2 : v ≠ 2 := by omega
  have v3 : v ≠ 3 := by omega
  have c1 : e + 1 ≤ nz := he
  have c2 : 1 ≤ e + 1 ∧ e + 1 ≤ nz + 1 := by omega
  cases s
  · simp only [Bool.false_eq_true, if_false] at hin
    have he0 : e = 0 := by omega
    subst he0
    have f0 : fullX3 nz (fun e _ => q e) 0 true = q 0 := by
      simp only [fullX3, put]
      rw [if_neg (by simp), if_neg (by simp), if_neg (by simp), if_pos (by simp), if_pos (by omega)]
    have w0 : wItf nz (fullX3 nz (fun e _ => q e)) 0 true = -(q 0 3 / q 0 0) := by
      have := colFull q nz le_rfl c1 false
      simp only [wItf, put]
      rw [if_neg (by simp), if_neg (by simp), if_pos (by simp), if_neg (by simp), this]
    simp only [riemannX3, faces, c2, and_self, if_true, Nat.zero_add, Nat.sub_self]
    rw [f0, w0, colFull q nz le_rfl c1, colW q nz le_rfl c1, hG]
    simp only [rusanovVert, v1, v2, v3, if_false, Nat.sub_self]
    ring
  · simp only [if_true] at hin
    have he0 : e + 1 = nz := by omega
    have hz : 1 ≤ nz := by omega
    have f0 : fullX3 nz (fun e _ => q e) (nz + 1) false = q (nz - 1) := by
      simp only [fullX3, put]
      rw [if_neg (by simp), if_pos (by simp), if_neg (by simp <;> omega), if_neg (by simp <;> omega), if_pos (by omega)]
    have w0 : wItf nz (fullX3 nz (fun e _ => q e)) (nz + 1) false = -(q (nz - 1) 3 / q (nz - 1) 0) := by
      have := colFull q nz hz le_rfl true
      simp only [wItf, put]
      rw [if_pos (by simp), if_neg (by simp), if_neg (by simp <;> omega), if_neg (by simp <;> omega), this]
    simp only [riemannX3, faces, c1, if_true]
    rw [he0, f0, w0, colFull q nz hz le_rfl, colW q nz hz le_rfl, hG]
    simp only [rusanovVert, v1, v2, v3, if_false]
    ring

/-- outflow through the lower and the upper side of an element of a column -/
theorem col_outflow (hG : ∀ e, G e true = G (e + 1) false) (hh : ∀ e, h e true = h (e + 1) false) (nz : Nat)
    (hG0 : ∀ e, 0 < e → e < nz → 0 ≤ G e true) (α β : ℝ) (hq : ∀ e < nz, 0 < q e 0 ∧ 0 < q e 4 ∧ 0 ≤ α * q e 0 + β * q e 4)
    {e : Nat} (he : e < nz) :
    (α * (riemannX3 nz false G h old (fun e _ => q e) e true).flux 0 + β * (riemannX3 nz false G h old (fun e _ => q e) e true).flux 4) -
    (α * (riemannX3 nz false G h old (fun e _ => q e) e false).flux 0 + β * (riemannX3 nz false G h old (fun e _ => q e) e false).flux 4) ≤
    1 / 2 * ((if e + 1 = nz then 0 else G (e + 1) true * (q e 3 / q e 0 + max (speed 2 (h (e + 1) true 2 2) (q e)) (speed 2 (h (e + 1) true 2 2) (q (e + 1))))) +
      (if e = 0 then 0 else G e true * (-(q e 3 / q e 0) + max (speed 2 (h e true 2 2) (q (e - 1))) (speed 2 (h e true 2 2) (q e))))) *
      (α * q e 0 + β * q e 4) := by
  have T : α * (riemannX3 nz false G h old (fun e _ => q e) e true).flux 0 + β * (riemannX3 nz false G h old (fun e _ => q e) e true).flux 4 ≤
      1 / 2 * (if e + 1 = nz then 0 else G (e + 1) true * (q e 3 / q e 0 + max (speed 2 (h (e + 1) true 2 2) (q e)) (speed 2 (h (e + 1) true 2 2) (q (e + 1))))) *
      (α * q e 0 + β * q e 4) := by
    split_ifs with hn
    · rw [col_wall G h old q hG nz (v := 0) (by omega) he true (by simp <;> omega), col_wall G h old q hG nz (v := 4) (by omega) he true (by simp <;> omega)]
      simp
    · have F0 := col_face G h old q hG hh nz (v := 0) (by omega) he true (by simp <;> omega)
      have F4 := col_face G h old q hG hh nz (v := 4) (by omega) he true (by simp <;> omega)
      simp only [if_true, Nat.add_sub_cancel] at F0 F4
      rw [F0, F4]
      have a := hq e he
      have b := hq (e + 1) (by omega)
      exact (phi3_bounds 2 (h := h (e + 1) true 2 2) (hG0 (e + 1) (by omega) (by omega)) α β a.1 a.2.1 b.1 b.2.1 a.2.2 b.2.2).1
  have F : -(α * (riemannX3 nz false G h old (fun e _ => q e) e false).flux 0 + β * (riemannX3 nz false G h old (fun e _ => q e) e false).flux 4) ≤
      1 / 2 * (if e = 0 then 0 else G e true * (-(q e 3 / q e 0) + max (speed 2 (h e true 2 2) (q (e - 1))) (speed 2 (h e true 2 2) (q e)))) *
      (α * q e 0 + β * q e 4) := by
    split_ifs with hn
    · rw [col_wall G h old q hG nz (v := 0) (by omega) he false (by simp <;> omega), col_wall G h old q hG nz (v := 4) (by omega) he false (by simp <;> omega)]
      simp
    · have F0 := col_face G h old q hG hh nz (v := 0) (by omega) he false (by simp <;> omega)
      have F4 := col_face G h old q hG hh nz (v := 4) (by omega) he false (by simp <;> omega)
      simp only [Bool.false_eq_true, if_false] at F0 F4
      rw [F0, F4]
      have a := hq (e - 1) (by omega)
      have b := hq e he
      exact (phi3_bounds 2 (h := h e true 2 2) (hG0 e (by omega) he) α β a.1 a.2.1 b.1 b.2.1 a.2.2 b.2.2).2
  linarith

end lines

/-! ## The model -/

variable {g : Atm} {f : Floor} {Q : Field3} {F : ForcingData}

theorem rootG_nonneg (hk : 0 < g.k) (hN : 0 < g.N) (p : Point3) (h1 : 0 ≤ p.dx) (h2 : 0 ≤ p.dy) (h3 : 0 ≤ p.de) : 0 ≤ rootG3 p := by
  have := Real.rpow_pos_of_pos (delta2_pos p.X p.Y) 1.5
  unfold rootG3
  positivity

theorem extrap_one3 (pts : Nat → ℝ) (q : Nat → ℝ) (l : Nat) (hl : l < 2) :
    vecmul (1 * 1 * 1) q (extrapX3 1 (extrapVec 1 pts (-1)) (extrapVec 1 pts 1)) l = q 0 ∧
    vecmul (1 * 1 * 1) q (extrapY3 1 (extrapVec 1 pts (-1)) (extrapVec 1 pts 1)) l = q 0 ∧
    vecmul (1 * 1 * 1) q (extrapZ3 1 (extrapVec 1 pts (-1)) (extrapVec 1 pts 1)) l = q 0 := by
  obtain ⟨h1, h2, h3⟩ := C42_extrap_3d 1 pts (injOn_one pts) q 0 0 (by omega) (by omega) (Polynomial.C (q 0))
    (lt_of_le_of_lt Polynomial.degree_C_le (by norm_num))
  have k1 := h1 (by intro a ha; have : a = 0 := by omega
                    subst this; simp)
  have k2 := h2 (by intro a ha; have : a = 0 := by omega
                    subst this; simp)
  have k3 := h3 (by intro a ha; have : a = 0 := by omega
                    subst this; simp)
  simp only [Polynomial.eval_C] at k1 k2 k3
  have : l = 0 ∨ l = 1 := by omega
  rcases this with rfl | rfl
  · exact ⟨k1.1, k2.1, k3.1⟩
  · exact ⟨k1.2, k2.2, k3.2⟩

/-- the state of an element on all its sides is the one at its point -/
theorem sides_one (hn : g.n = 1) {r ek ej ei : Nat} (h0 : 0 < Q r ek ej ei 0 0) (h4 : 0 < Q r ek ej ei 4 0) (s : Bool) (v : Nat) :
    qI g Q r ek ej ei v (node (g.n * g.n) s 0) = Q r ek ej ei v 0 ∧ qJ g Q r ek ej ei v (node (g.n * g.n) s 0) = Q r ek ej ei v 0 ∧
    qK g Q r ek ej ei v (node (g.n * g.n) s 0) = Q r ek ej ei v 0 := by
  have hl : node (g.n * g.n) s 0 < 2 := by rw [hn]; cases s <;> simp [node]
  have E := fun q => extrap_one3 g.pts q _ hl
  rw [hn] at E
  unfold qI qJ qK extrapolated toI toJ toK
  rw [hn]
  simp only [(E _).1, (E _).2.1, (E _).2.2]
  split_ifs with hv
  · rcases hv with rfl | rfl
    · simp only [Real.exp_log h0, and_self]
    · simp only [Real.exp_log h4, and_self]
  · simp

/-- states on the two sides of interface `e` of a row of elements; beyond the sides of the tile, what was received -/
noncomputable def beforeI (g : Atm) (Q : Field3) (r ek ej e : Nat) : Nat → ℝ :=
  if e = 0 then fun v => received g Q ek 0 r .west v ej else fun v => Q r ek ej (e - 1) v 0
/-- east of it -/
noncomputable def afterI (g : Atm) (Q : Field3) (r ek ej e : Nat) : Nat → ℝ :=
  if e = g.N then fun v => received g Q ek 0 r .east v ej else fun v => Q r ek ej e v 0
/-- south of interface `e` of a column of elements -/
noncomputable def beforeJ (g : Atm) (Q : Field3) (r ek ei e : Nat) : Nat → ℝ :=
  if e = 0 then fun v => received g Q ek 0 r .south v ei else fun v => Q r ek (e - 1) ei v 0
/-- north of it -/
noncomputable def afterJ (g : Atm) (Q : Field3) (r ek ei e : Nat) : Nat → ℝ :=
  if e = g.N then fun v => received g Q ek 0 r .north v ei else fun v => Q r ek e ei v 0

/-- Share of its content an element can lose in one unit of time through a side: `p` is the point of the side, `v` the velocity out of the
    element, `A` and `B` the states on the two sides, `d` the direction. Elements have two units of length in each direction, and the
    volume element of the element is divided out in `LimitedSphere`. -/
noncomputable def loss (d : Nat) (p : Point3) (v : ℝ) (A B : Nat → ℝ) : ℝ :=
  rootG3 p * (v + max (speed d (ent3 (Hcontra3 p) d d) A) (speed d (ent3 (Hcontra3 p) d d) B))

/-- through all sides: nothing is lost through the bottom and the top -/
noncomputable def losses (g : Atm) (f : Floor) (Q : Field3) (r ek ej ei : Nat) : ℝ :=
  loss 0 (ptI g f r ek ej (ei + 1) 0) (Q r ek ej ei 1 0 / Q r ek ej ei 0 0) (beforeI g Q r ek ej (ei + 1)) (afterI g Q r ek ej (ei + 1)) +
  loss 0 (ptI g f r ek ej ei 0) (-(Q r ek ej ei 1 0 / Q r ek ej ei 0 0)) (beforeI g Q r ek ej ei) (afterI g Q r ek ej ei) +
  loss 1 (ptJ g f r ek (ej + 1) ei 0) (Q r ek ej ei 2 0 / Q r ek ej ei 0 0) (beforeJ g Q r ek ei (ej + 1)) (afterJ g Q r ek ei (ej + 1)) +
  loss 1 (ptJ g f r ek ej ei 0) (-(Q r ek ej ei 2 0 / Q r ek ej ei 0 0)) (beforeJ g Q r ek ei ej) (afterJ g Q r ek ei ej) +
  (if ek + 1 = g.nz then 0 else
    loss 2 (ptK g f r (ek + 1) ej ei 0) (Q r ek ej ei 3 0 / Q r ek ej ei 0 0) (fun v => Q r ek ej ei v 0) (fun v => Q r (ek + 1) ej ei v 0)) +
  (if ek = 0 then 0 else
    loss 2 (ptK g f r ek ej ei 0) (-(Q r ek ej ei 3 0 / Q r ek ej ei 0 0)) (fun v => Q r (ek - 1) ej ei v 0) (fun v => Q r ek ej ei v 0))

/-- no element can lose its content in time `dt` -/
def LimitedSphere (g : Atm) (f : Floor) (dt : ℝ) (Q : Field3) : Prop :=
  ∀ r < 6 * g.k ^ 2, ∀ ek < g.nz, ∀ ej < g.N, ∀ ei < g.N, dt * losses g f Q r ek ej ei < 4 * sqrtG g f r ek ej ei 0

/-- the elements of a state have positive density, and potential temperatures between `lo` and `hi` -/
def InsideSphere (g : Atm) (lo hi : ℝ) (Q : Field3) : Prop :=
  ∀ r < 6 * g.k ^ 2, ∀ ek < g.nz, ∀ ej < g.N, ∀ ei < g.N, Between lo hi (Q r ek ej ei 0 0) (Q r ek ej ei 4 0)

/-- what is received for `ρ` and `ρθ` are the values of one element of the neighbouring tile -/
theorem received_cell (hn : g.n = 1) (hpos : ∀ r < 6 * g.k ^ 2, ∀ ek < g.nz, ∀ ej < g.N, ∀ ei < g.N, 0 < Q r ek ej ei 0 0 ∧ 0 < Q r ek ej ei 4 0)
    {r ek e : Nat} (hr : r < 6 * g.k ^ 2) (hek : ek < g.nz) (he : e < g.N) (d : Side) : ∃ r' < 6 * g.k ^ 2, ∃ ej < g.N, ∃ ei < g.N,
      received g Q ek 0 r d 0 e = Q r' ek ej ei 0 0 ∧ received g Q ek 0 r d 4 e = Q r' ek ej ei 4 0 := by
  have hv := placeOf_valid (k := g.k) (rank := r) (by rw [← pow_two]; exact hr)
  have hrr : enc g.k (placeOf g.k r) = r := enc_placeOf
  have hie : e < g.N * g.n := by rw [hn]; omega
  have R0 := received_scalar (Q := Q) ek 0 (Or.inl rfl : 0 = 0 ∨ 0 = 4) hv d hie
  have R4 := received_scalar (Q := Q) ek 0 (Or.inr rfl : 4 = 0 ∨ 4 = 4) hv d hie
  rw [hrr] at R0 R4
  have hlt := enc_lt (nbrPlace_valid hv d)
  rw [← pow_two] at hlt
  have hm := mirrored_lt (backFlip g.k (placeOf g.k r) d) hie
  set r' := enc g.k (nbrPlace g.k (placeOf g.k r) d)
  set i := mirrored (backFlip g.k (placeOf g.k r) d) (g.N * g.n) e
  have hi : i < g.N := by rw [hn] at hm; omega
  have hN : 0 < g.N := by omega
  have e1 : i / g.n = i := by rw [hn, Nat.div_one]
  have e2 : 0 * g.n + i % g.n = 0 := by rw [hn, Nat.mod_one]
  rw [R0, R4]
  cases backSide g.k (placeOf g.k r) d
  · refine ⟨r', hlt, 0, hN, i, hi, ?_⟩
    have p := hpos r' hlt ek hek 0 hN i hi
    simp only [sent, e1, e2]
    exact ⟨(sides_one hn p.1 p.2 false 0).2.1, (sides_one hn p.1 p.2 false 4).2.1⟩
  · refine ⟨r', hlt, g.N - 1, by omega, i, hi, ?_⟩
    have p := hpos r' hlt ek hek (g.N - 1) (by omega) i hi
    simp only [sent, e1, e2]
    exact ⟨(sides_one hn p.1 p.2 true 0).2.1, (sides_one hn p.1 p.2 true 4).2.1⟩
  · refine ⟨r', hlt, i, hi, 0, hN, ?_⟩
    have p := hpos r' hlt ek hek i hi 0 hN
    simp only [sent, e1, e2]
    exact ⟨(sides_one hn p.1 p.2 false 0).1, (sides_one hn p.1 p.2 false 4).1⟩
  · refine ⟨r', hlt, i, hi, g.N - 1, by omega, ?_⟩
    have p := hpos r' hlt ek hek i hi (g.N - 1) (by omega)
    simp only [sent, e1, e2]
    exact ⟨(sides_one hn p.1 p.2 true 0).1, (sides_one hn p.1 p.2 true 4).1⟩

/-- the tendency of `ρ` and `ρθ` of an element is the balance of the fluxes through its six sides -/
theorem tendency_one {xs ws : List ℝ} (hn : g.n = 1) (h : IsGaussRule 1 xs ws) (hp : g.pts = arr xs) (hadv : advectionOnly g = false)
    {v : Nat} (hv : v = 0 ∨ v = 4) (r ek ej ei : Nat) (hG : 0 < sqrtG g f r ek ej ei 0) :
    2 * sqrtG g f r ek ej ei 0 * rhs g f Q F r ek ej ei v 0 =
      -(((fluxI g f Q r ek ej 0 ei true).flux v - (fluxI g f Q r ek ej 0 ei false).flux v) +
        ((fluxJ g f Q r ek ei 0 ej true).flux v - (fluxJ g f Q r ek ei 0 ej false).flux v) +
        ((fluxK g f Q r ej ei 0 ek true).flux v - (fluxK g f Q r ej ei 0 ek false).flux v)) := by
  have key := C43_budget_3d le_rfl h 1 1 1 one_pos one_pos one_pos (fun _ _ _ _ => sqrtG g f r ek ej ei 0)
    (fun _ _ _ => pointFlux g f Q 0 r ek ej ei v) (fun _ _ _ => pointFlux g f Q 1 r ek ej ei v) (fun _ _ _ => pointFlux g f Q 2 r ek ej ei v)
    (fun _ _ _ => ofSides g fun m s => (fluxI g f Q r ek ej m ei s).flux v)
    (fun _ _ _ => ofSides g fun m s => (fluxJ g f Q r ek ei m ej s).flux v)
    (fun _ _ _ => ofSides g fun m s => (fluxK g f Q r ej ei m ek s).flux v) (fun _ _ _ _ => hG.ne') (by omega) (by omega) (by omega)
  simp only [Finset.range_one, Finset.sum_singleton, elemSum3, weight_one h, zero_mul, zero_add, Nat.mul_one, Nat.zero_div, Nat.zero_mod,
    mul_one] at key
  have o : ∀ A : Nat → Bool → ℝ, ofSides g A 0 = A 0 false ∧ ofSides g A (1 + 0) = A 0 true := by
    intro A; simp [ofSides, hn]
  simp only [(o _).1, (o _).2] at key
  rw [rhs_scalar hadv hv, hp, hn]
  unfold rhsSphere3d at key ⊢
  linarith

/-- the change of a combination of `ρ` and `ρθ` in a step -/
theorem step_nonneg {xs ws : List ℝ} (hk : 0 < g.k) (hN : 0 < g.N) (hz : 0 < g.nz) (hn : g.n = 1) (h : IsGaussRule 1 xs ws) (hp : g.pts = arr xs)
    (hadv : advectionOnly g = false)
    (hpos : ∀ r < 6 * g.k ^ 2, ∀ ek < g.nz, ∀ ej < g.N, ∀ ei < g.N, 0 < Q r ek ej ei 0 0 ∧ 0 < Q r ek ej ei 4 0)
    (α β : ℝ) (hq : ∀ r < 6 * g.k ^ 2, ∀ ek < g.nz, ∀ ej < g.N, ∀ ei < g.N, 0 ≤ α * Q r ek ej ei 0 0 + β * Q r ek ej ei 4 0)
    {r ek ej ei : Nat} (hr : r < 6 * g.k ^ 2) (hek : ek < g.nz) (hej : ej < g.N) (hei : ei < g.N) (hG : 0 < sqrtG g f r ek ej ei 0) :
    -(losses g f Q r ek ej ei * (α * Q r ek ej ei 0 0 + β * Q r ek ej ei 4 0)) ≤
      4 * sqrtG g f r ek ej ei 0 * (α * rhs g f Q F r ek ej ei 0 0 + β * rhs g f Q F r ek ej ei 4 0) := by
  have T0 := tendency_one (F := F) (Q := Q) hn h hp hadv (Or.inl rfl : 0 = 0 ∨ 0 = 4) r ek ej ei hG
  have T4 := tendency_one (F := F) (Q := Q) hn h hp hadv (Or.inr rfl : 4 = 0 ∨ 4 = 4) r ek ej ei hG
  have good : ∀ ek' < g.nz, ∀ ej' < g.N, ∀ ei' < g.N, 0 < Q r ek' ej' ei' 0 0 ∧ 0 < Q r ek' ej' ei' 4 0 ∧
      0 ≤ α * Q r ek' ej' ei' 0 0 + β * Q r ek' ej' ei' 4 0 := fun a ha b hb c hc =>
    ⟨(hpos r hr a ha b hb c hc).1, (hpos r hr a ha b hb c hc).2, hq r hr a ha b hb c hc⟩
  have halo : ∀ e < g.N, ∀ d, 0 < received g Q ek 0 r d 0 e ∧ 0 < received g Q ek 0 r d 4 e ∧
      0 ≤ α * received g Q ek 0 r d 0 e + β * received g Q ek 0 r d 4 e := by
    intro e he d
    obtain ⟨r', hr', j, hj, i, hi, a, b⟩ := received_cell hn hpos hr hek he d
    rw [a, b]
    exact ⟨(hpos r' hr' ek hek j hj i hi).1, (hpos r' hr' ek hek j hj i hi).2, hq r' hr' ek hek j hj i hi⟩
  have de : 0 ≤ deltaEta g := by unfold deltaEta; rw [sub_zero]; positivity
  have dx := (Grid.dx_pos (g := g.toGrid) hk hN).le
  have m1 : ∀ e : Nat, e * g.n + 0 % g.n = e := by intro e; rw [hn]; omega
  have cI : ∀ s, fluxI g f Q r ek ej 0 ei s = riemannHori 0 g.N false (fun p s => rootG3 (ptI g f r ek ej (itfIndex p s) 0))
      (fun p s => ent3 (Hcontra3 (ptI g f r ek ej (itfIndex p s) 0))) (fun _ _ => ⟨fun _ => 0, 0, 0⟩) (fun e _ v => Q r ek ej e v 0)
      (fun v => received g Q ek 0 r .west v ej) (fun v => received g Q ek 0 r .east v ej) ei s := by
    intro s
    unfold fluxI
    rw [hadv, m1, Nat.zero_div]
    refine hori_congr _ _ _ _ _ _ hei ?_
    intro e he s v
    exact (sides_one hn (good ek hek ej hej e he).1 (good ek hek ej hej e he).2.1 s v).1
  have cJ : ∀ s, fluxJ g f Q r ek ei 0 ej s = riemannHori 1 g.N false (fun p s => rootG3 (ptJ g f r ek (itfIndex p s) ei 0))
      (fun p s => ent3 (Hcontra3 (ptJ g f r ek (itfIndex p s) ei 0))) (fun _ _ => ⟨fun _ => 0, 0, 0⟩) (fun e _ v => Q r ek e ei v 0)
      (fun v => received g Q ek 0 r .south v ei) (fun v => received g Q ek 0 r .north v ei) ej s := by
    intro s
    unfold fluxJ
    rw [hadv, m1, Nat.zero_div]
    refine hori_congr _ _ _ _ _ _ hej ?_
    intro e he s v
    exact (sides_one hn (good ek hek e he ei hei).1 (good ek hek e he ei hei).2.1 s v).2.1
  have cK : ∀ s, fluxK g f Q r ej ei 0 ek s = riemannX3 g.nz false (fun p s => rootG3 (ptK g f r (itfIndex p s) ej ei 0))
      (fun p s => ent3 (Hcontra3 (ptK g f r (itfIndex p s) ej ei 0))) (fun _ _ => ⟨fun _ => 0, 0, 0⟩) (fun e _ v => Q r e ej ei v 0) ek s := by
    intro s
    unfold fluxK
    rw [hadv]
    refine col_congr _ _ _ _ hek ?_
    intro e he s v
    exact (sides_one hn (good e he ej hej ei hei).1 (good e he ej hej ei hei).2.1 s v).2.2
  have OI := hori_outflow g.N (fun p s => rootG3 (ptI g f r ek ej (itfIndex p s) 0)) (fun p s => ent3 (Hcontra3 (ptI g f r ek ej (itfIndex p s) 0)))
    (fun _ _ => ⟨fun _ => 0, 0, 0⟩) (fun e v => Q r ek ej e v 0) (fun v => received g Q ek 0 r .west v ej) (fun v => received g Q ek 0 r .east v ej)
    0 (by omega) (fun _ => rfl) (fun _ => rfl)
    (fun e _ => rootG_nonneg hk hN _ (by simp only [ptI, Grid.delta1_eq]; exact dx) (by simp only [ptI, Grid.delta2_eq]; exact dx) de) α β
    (fun e he => good ek hek ej hej e he) (halo ej hej .west) (halo ej hej .east) hei
  have OJ := hori_outflow g.N (fun p s => rootG3 (ptJ g f r ek (itfIndex p s) ei 0)) (fun p s => ent3 (Hcontra3 (ptJ g f r ek (itfIndex p s) ei 0)))
    (fun _ _ => ⟨fun _ => 0, 0, 0⟩) (fun e v => Q r ek e ei v 0) (fun v => received g Q ek 0 r .south v ei) (fun v => received g Q ek 0 r .north v ei)
    1 (by omega) (fun _ => rfl) (fun _ => rfl)
    (fun e _ => rootG_nonneg hk hN _ (by simp only [ptJ, Grid.delta1_eq]; exact dx) (by simp only [ptJ, Grid.delta2_eq]; exact dx) de) α β
    (fun e he => good ek hek e he ei hei) (halo ei hei .south) (halo ei hei .north) hej
  have OK := col_outflow (fun p s => rootG3 (ptK g f r (itfIndex p s) ej ei 0)) (fun p s => ent3 (Hcontra3 (ptK g f r (itfIndex p s) ej ei 0)))
    (fun _ _ => ⟨fun _ => 0, 0, 0⟩) (fun e v => Q r e ej ei v 0) (fun _ => rfl) (fun _ => rfl) g.nz
    (fun e _ _ => rootG_nonneg hk hN _ (by simp only [ptK, Grid.delta1_eq]; exact dx) (by simp only [ptK, Grid.delta2_eq]; exact dx) de) α β
    (fun e he => good e he ej hej ei hei) hek
  rw [← cI, ← cI] at OI
  rw [← cJ, ← cJ] at OJ
  rw [← cK, ← cK] at OK
  have eI : ∀ e, before (fun e v => Q r ek ej e v 0) (fun v => received g Q ek 0 r .west v ej) e = beforeI g Q r ek ej e ∧
      after g.N (fun e v => Q r ek ej e v 0) (fun v => received g Q ek 0 r .east v ej) e = afterI g Q r ek ej e := fun e => ⟨rfl, rfl⟩
  have eJ : ∀ e, before (fun e v => Q r ek e ei v 0) (fun v => received g Q ek 0 r .south v ei) e = beforeJ g Q r ek ei e ∧
      after g.N (fun e v => Q r ek e ei v 0) (fun v => received g Q ek 0 r .north v ei) e = afterJ g Q r ek ei e := fun e => ⟨rfl, rfl⟩
  simp only [(eI _).1, (eI _).2, itfIndex, if_true] at OI
  simp only [(eJ _).1, (eJ _).2, itfIndex, if_true] at OJ
  simp only [itfIndex, if_true] at OK
  unfold losses loss
  set lam := α * Q r ek ej ei 0 0 + β * Q r ek ej ei 4 0
  have e : 4 * sqrtG g f r ek ej ei 0 * (α * rhs g f Q F r ek ej ei 0 0 + β * rhs g f Q F r ek ej ei 4 0) =
      2 * α * (2 * sqrtG g f r ek ej ei 0 * rhs g f Q F r ek ej ei 0 0) + 2 * β * (2 * sqrtG g f r ek ej ei 0 * rhs g f Q F r ek ej ei 4 0) := by ring
  rw [e, T0, T4]
  linarith

/-- **C89**, 3D Euler equations, one step of Euler1 with one solution point per element on all tiles: if no element can lose its content in the
    step, the density stays positive and the potential temperature of every element stays between the bounds it had, for every forcing
    data, every floor below the top, deep or shallow atmosphere. -/
theorem C89_sphere_step {xs ws : List ℝ} (hk : 0 < g.k) (hN : 0 < g.N) (hz : 0 < g.nz) (hn : g.n = 1) (h : IsGaussRule 1 xs ws)
    (hp : g.pts = arr xs) (hR : g.radius ≠ 0) (hs : SensibleFloor g f) (dt : ℝ) (hdt : 0 ≤ dt) (lo hi : ℝ) (hlo : 0 < lo)
    (hin : InsideSphere g lo hi Q) (hl : LimitedSphere g f dt Q) :
    InsideSphere g lo hi (Schemes.euler1 (fun Q => rhs g f Q F) Q dt) := by
  intro r hr ek hek ej hej ei hei
  have e : ∀ v, Schemes.euler1 (fun Q => rhs g f Q F) Q dt r ek ej ei v 0 = Q r ek ej ei v 0 + dt * rhs g f Q F r ek ej ei v 0 := fun v => rfl
  rw [e, e]
  rcases Bool.eq_false_or_eq_true (advectionOnly g) with hadv | hadv
  · have z : ∀ v ≤ 4, rhs g f Q F r ek ej ei v 0 = 0 := by intro v hv; simp [rhs, hadv, hv]
    rw [z 0 (by omega), z 4 le_rfl]
    simpa using hin r hr ek hek ej hej ei hei
  · have hn1 : (1 : Nat) ≤ g.n := by omega
    have hG : 0 < sqrtG g f r ek ej ei 0 := by
      have := sqrtG_pos (f := f) (xs := xs) (ws := ws) (k := 0) (j := 0) (i := 0) hk hN hn1 (by rw [hn]; exact h) hp hz hR hs hr hek hej hei hn1 hn1 hn1
      simpa using this
    have hpos : ∀ r < 6 * g.k ^ 2, ∀ ek < g.nz, ∀ ej < g.N, ∀ ei < g.N, 0 < Q r ek ej ei 0 0 ∧ 0 < Q r ek ej ei 4 0 := by
      intro r hr ek hek ej hej ei hei
      obtain ⟨a, b, _⟩ := hin r hr ek hek ej hej ei hei
      exact ⟨a, lt_of_lt_of_le (mul_pos hlo a) b⟩
    have key := fun α β hq => step_nonneg (f := f) (F := F) hk hN hz hn h hp hadv hpos α β hq hr hek hej hei hG
    have L := hl r hr ek hek ej hej ei hei
    set ρ := Q r ek ej ei 0 0
    set θ := Q r ek ej ei 4 0
    set A := rhs g f Q F r ek ej ei 0 0
    set B := rhs g f Q F r ek ej ei 4 0
    set S := losses g f Q r ek ej ei
    set G := sqrtG g f r ek ej ei 0
    -- the combination after the step, times the volume element
    have fin : ∀ α β, (∀ r < 6 * g.k ^ 2, ∀ ek < g.nz, ∀ ej < g.N, ∀ ei < g.N, 0 ≤ α * Q r ek ej ei 0 0 + β * Q r ek ej ei 4 0) →
        (4 * G - dt * S) * (α * ρ + β * θ) ≤ 4 * G * (α * (ρ + dt * A) + β * (θ + dt * B)) := by
      intro α β hq
      have := mul_le_mul_of_nonneg_left (key α β hq) hdt
      linarith
    have c : 0 < 4 * G - dt * S := by linarith
    obtain ⟨a1, a2, a3⟩ := hin r hr ek hek ej hej ei hei
    refine ⟨?_, ?_, ?_⟩
    · have := fin 1 0 (by intro r hr ek hek ej hej ei hei; have := (hin r hr ek hek ej hej ei hei).1; linarith)
      have h2 : 0 < (4 * G - dt * S) * (1 * ρ + 0 * θ) := mul_pos c (by linarith)
      have h3 : 0 < 4 * G * (1 * (ρ + dt * A) + 0 * (θ + dt * B)) := by linarith
      have := (mul_pos_iff_of_pos_left (show 0 < 4 * G by linarith)).1 h3
      linarith
    · have := fin (-lo) 1 (by intro r hr ek hek ej hej ei hei; have := (hin r hr ek hek ej hej ei hei).2.1; linarith)
      have h2 : 0 ≤ (4 * G - dt * S) * (-lo * ρ + 1 * θ) := mul_nonneg c.le (by linarith)
      have h3 : 0 ≤ 4 * G * (-lo * (ρ + dt * A) + 1 * (θ + dt * B)) := by linarith
      have := nonneg_of_mul_nonneg_right h3 (show 0 < 4 * G by linarith)
      linarith
    · have := fin hi (-1) (by intro r hr ek hek ej hej ei hei; have := (hin r hr ek hek ej hej ei hei).2.2; linarith)
      have h2 : 0 ≤ (4 * G - dt * S) * (hi * ρ + -1 * θ) := mul_nonneg c.le (by linarith)
      have h3 : 0 ≤ 4 * G * (hi * (ρ + dt * A) + -1 * (θ + dt * B)) := by linarith
      have := nonneg_of_mul_nonneg_right h3 (show 0 < 4 * G by linarith)
      linarith

/-- **C89**, whole runs on the sphere with Euler1. -/
theorem C89_sphere_run {xs ws : List ℝ} (hk : 0 < g.k) (hN : 0 < g.N) (hz : 0 < g.nz) (hn : g.n = 1) (h : IsGaussRule 1 xs ws)
    (hp : g.pts = arr xs) (hR : g.radius ≠ 0) (hs : SensibleFloor g f) (Q : Nat → Field3) (dt : Nat → ℝ) (hdt : ∀ i, 0 ≤ dt i) (lo hi : ℝ)
    (hlo : 0 < lo) (hrun : ∀ i, Q (i + 1) = Schemes.euler1 (fun Q => rhs g f Q F) (Q i) (dt i)) (hin : InsideSphere g lo hi (Q 0))
    (hl : ∀ i, LimitedSphere g f (dt i) (Q i)) (i : Nat) : InsideSphere g lo hi (Q i) := by
  induction i with
  | zero => exact hin
  | succ i ih =>
    rw [hrun]
    exact C89_sphere_step hk hN hz hn h hp hR hs (dt i) (hdt i) lo hi hlo ih (hl i)

/-- **C89** Such steps exist for every state. -/
theorem C89_sphere_possible {xs ws : List ℝ} (hk : 0 < g.k) (hN : 0 < g.N) (hz : 0 < g.nz) (hn : g.n = 1) (h : IsGaussRule 1 xs ws)
    (hp : g.pts = arr xs) (hR : g.radius ≠ 0) (hs : SensibleFloor g f) (Q : Field3) : ∃ dt : ℝ, 0 < dt ∧ LimitedSphere g f dt Q := by
  have hn1 : (1 : Nat) ≤ g.n := by omega
  obtain ⟨dt, h0, h⟩ := step_exists ((Finset.range (6 * g.k ^ 2)) ×ˢ (Finset.range g.nz) ×ˢ (Finset.range g.N) ×ˢ (Finset.range g.N))
    (fun c => losses g f Q c.1 c.2.1 c.2.2.1 c.2.2.2) (fun c => 4 * sqrtG g f c.1 c.2.1 c.2.2.1 c.2.2.2 0) (by
      rintro ⟨r, ek, ej, ei⟩ hc
      simp only [Finset.mem_product, Finset.mem_range] at hc
      have := sqrtG_pos (f := f) (xs := xs) (ws := ws) (k := 0) (j := 0) (i := 0) hk hN hn1 (by rw [hn]; exact h) hp hz hR hs hc.1 hc.2.1 hc.2.2.1 hc.2.2.2
        hn1 hn1 hn1
      have : 0 < sqrtG g f r ek ej ei 0 := by simpa using this
      linarith)
  exact ⟨dt, h0, fun r hr ek hek ej hej ei hei => h ⟨r, ek, ej, ei⟩ (by simp [hr, hek, hej, hei])⟩

end WxVerif.Props.MaxPrincipleSphere
