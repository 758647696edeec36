import Verif.Model.Matsuno
import Verif.Spec.BetaPlane
import Mathlib.Analysis.SpecialFunctions.ExpDeriv
import Mathlib.Analysis.SpecialFunctions.Trigonometric.Deriv
import Mathlib.Analysis.Real.Pi.Bounds
import Mathlib.Tactic.LinearCombination
import Mathlib.Tactic.FieldSimp
import Mathlib.Tactic.Ring

/-!
# C71 — the Matsuno initial state is an exact equatorial wave

For every planet with positive parameters, all wave numbers `k ≥ 1`, `n ≥ 1`, every amplitude and each of the three
wave types: the frequency the program computes is a root of Matsuno's dispersion relation (and the three wave types
are exactly its three roots), and the three fields it computes solve the linear shallow-water equations of the
equatorial beta-plane at every longitude, latitude and time.
-/

namespace WxVerif.Props.Matsuno

open WxVerif.Model.Matsuno WxVerif.Spec

/-- The parameters of the planet are positive. -/
structure Physical (P : Planet) : Prop where
  OMEGA : 0 < P.OMEGA
  G : 0 < P.G
  A : 0 < P.A
  H0 : 0 < P.H0

/-- Earth's parameters are positive. -/
theorem earth_physical : Physical earth := by
  constructor <;> norm_num [earth]

/-- Matsuno's dispersion relation of the equatorial waves with zonal wave number `k` and mode `n`, in the usual form
`ω³ − (c² k²/a² + (2n+1) β c) ω − β c² k/a = 0` with `c = √(g h₀)` and `β = 2Ω/a`. -/
def Dispersion (P : Planet) (k n : ℕ) (w : ℝ) : Prop :=
  w ^ 3 - (P.G * P.H0 * k ^ 2 / P.A ^ 2 + (2 * n + 1) * (2 * P.OMEGA / P.A) * Real.sqrt (P.G * P.H0)) * w
    - (2 * P.OMEGA / P.A) * (P.G * P.H0) * k / P.A = 0

/-! ### Three roots of a cubic -/

/-- Three ordered roots that add up to zero of a depressed cubic with positive discriminant and negative constant
term: two are negative, different, and the third is positive. -/
theorem sorted_roots {B q x y z : ℝ} (hB : 27 * q ^ 2 < 4 * B ^ 3) (hq : q < 0)
    (hx : x ^ 3 - B * x + q = 0) (hy : y ^ 3 - B * y + q = 0) (hz : z ^ 3 - B * z + q = 0) (hs : x + y + z = 0)
    (hxy : x ≤ y) (hyz : y ≤ z) : x < y ∧ y < 0 ∧ 0 < z := by
  have nz : ∀ w : ℝ, w ^ 3 - B * w + q = 0 → w ≠ 0 := by
    rintro w hw rfl
    apply hq.ne
    linarith [hw, (by ring : (0 : ℝ) ^ 3 - B * 0 + q = q)]
  have hz0 : 0 < z := by
    rcases lt_or_gt_of_ne (nz z hz) with h | h
    · linarith
    · exact h
  have hy0 : y < 0 := by
    rcases lt_or_gt_of_ne (nz y hy) with h | h
    · exact h
    · exfalso
      have ez : z = -x - y := by linarith
      subst ez
      have hx' : x < 0 := by linarith
      by_cases e : y = -x - y
      · have ex : x = -2 * y := by linarith
        subst ex
        have h1 : B * y = 3 * y ^ 3 := by linear_combination (hx - hy) / 3
        have h2 : q = 2 * y ^ 3 := by linear_combination hy + h1
        have : 0 < y ^ 3 := by positivity
        linarith
      · have h1 : (y - (-x - y)) * (y ^ 2 + y * (-x - y) + (-x - y) ^ 2 - B) = 0 := by
          linear_combination hy - hz
        have h2 : B = y ^ 2 + y * (-x - y) + (-x - y) ^ 2 := by
          rcases mul_eq_zero.1 h1 with h | h
          · exact absurd (by linarith) e
          · linarith
        have h3 : q = y * (-x - y) * (-x) := by
          rw [h2] at hy
          linear_combination hy
        have : 0 < y * (-x - y) * (-x) := by
          apply mul_pos (mul_pos h hz0); linarith
        linarith
  refine ⟨lt_of_le_of_ne hxy ?_, hy0, hz0⟩
  rintro rfl
  have ez : z = -2 * x := by linarith
  subst ez
  have h1 : B * x = 3 * x ^ 3 := by linear_combination (hz - hy) / 3
  have h2 : q = 2 * x ^ 3 := by linear_combination hy + h1
  have h3 : B = 3 * x ^ 2 := by
    have hx0 : x ≠ 0 := hy0.ne
    have : x * (B - 3 * x ^ 2) = 0 := by linear_combination h1
    rcases mul_eq_zero.1 this with h | h
    · exact absurd h hx0
    · linarith
  rw [h2, h3] at hB
  have : (27 : ℝ) * (2 * x ^ 3) ^ 2 = 4 * (3 * x ^ 2) ^ 3 := by ring
  linarith

/-- A cubic without quadratic term that has three different roots has no other. -/
theorem all_roots {B q x y z : ℝ} (hx : x ^ 3 - B * x + q = 0) (hy : y ^ 3 - B * y + q = 0)
    (hs : x + y + z = 0) (hxy : x < y) (w : ℝ) (hw : w ^ 3 - B * w + q = 0) : w = x ∨ w = y ∨ w = z := by
  have ez : z = -x - y := by linarith
  have h1 : (y - x) * (y ^ 2 + y * x + x ^ 2 - B) = 0 := by linear_combination hy - hx
  have h2 : B = y ^ 2 + y * x + x ^ 2 := by
    rcases mul_eq_zero.1 h1 with h | h
    · exact absurd (by linarith) hxy.ne
    · linarith
  have h3 : q = x * y * (x + y) := by rw [h2] at hx; linear_combination hx
  have h4 : (w - x) * ((w - y) * (w - z)) = 0 := by
    rw [ez]; rw [h2, h3] at hw; linear_combination hw
  rcases mul_eq_zero.1 h4 with h | h
  · left; linarith
  · rcases mul_eq_zero.1 h with h | h
    · right; left; linarith
    · right; right; linarith

/-- The smallest, the largest, and minus the smallest modulus of three roots that add up to zero. -/
theorem pick_roots {B q x y z : ℝ} (hB : 27 * q ^ 2 < 4 * B ^ 3) (hq : q < 0)
    (hx : x ^ 3 - B * x + q = 0) (hy : y ^ 3 - B * y + q = 0) (hz : z ^ 3 - B * z + q = 0) (hs : x + y + z = 0) :
    ∃ a b c, a < b ∧ b < 0 ∧ 0 < c ∧ a + b + c = 0 ∧ a ^ 3 - B * a + q = 0 ∧ b ^ 3 - B * b + q = 0 ∧
      c ^ 3 - B * c + q = 0 ∧ min x (min y z) = a ∧ -min |x| (min |y| |z|) = b ∧ max x (max y z) = c := by
  have key : ∀ a b c : ℝ, a ^ 3 - B * a + q = 0 → b ^ 3 - B * b + q = 0 → c ^ 3 - B * c + q = 0 →
      a + b + c = 0 → a ≤ b → b ≤ c → a < b ∧ b < 0 ∧ 0 < c ∧ |a| = -a ∧ |b| = -b ∧ |c| = c := by
    intro a b c ha hb hc hs h1 h2
    obtain ⟨h3, h4, h5⟩ := sorted_roots hB hq ha hb hc hs h1 h2
    exact ⟨h3, h4, h5, abs_of_neg (by linarith), abs_of_neg h4, abs_of_pos h5⟩
  rcases le_total x y with h1 | h1 <;> rcases le_total y z with h2 | h2 <;> rcases le_total x z with h3 | h3
  · obtain ⟨a1, a2, a3, e1, e2, e3⟩ := key x y z hx hy hz (by linarith) h1 h2
    refine ⟨x, y, z, a1, a2, a3, by linarith, hx, hy, hz, ?_, ?_, ?_⟩
    · rw [min_eq_left h2, min_eq_left h1]
    · rw [e1, e2, e3]; simp only [min_def]; split_ifs <;> linarith
    · rw [max_eq_right h2, max_eq_right h3]
  · obtain ⟨a1, a2, a3, e1, e2, e3⟩ := key x y z hx hy hz (by linarith) h1 h2
    refine ⟨x, y, z, a1, a2, a3, by linarith, hx, hy, hz, ?_, ?_, ?_⟩
    · rw [min_eq_left h2, min_eq_left h1]
    · rw [e1, e2, e3]; simp only [min_def]; split_ifs <;> linarith
    · rw [max_eq_right h2, max_eq_right (by linarith)]
  · obtain ⟨a1, a2, a3, e1, e2, e3⟩ := key x z y hx hz hy (by linarith) h3 h2
    refine ⟨x, z, y, a1, a2, a3, by linarith, hx, hz, hy, ?_, ?_, ?_⟩
    · rw [min_eq_right h2, min_eq_left h3]
    · rw [e1, e2, e3]; simp only [min_def]; split_ifs <;> linarith
    · rw [max_eq_left h2, max_eq_right h1]
  · obtain ⟨a1, a2, a3, e1, e2, e3⟩ := key z x y hz hx hy (by linarith) h3 h1
    refine ⟨z, x, y, a1, a2, a3, by linarith, hz, hx, hy, ?_, ?_, ?_⟩
    · rw [min_eq_right h2, min_eq_right h3]
    · rw [e1, e2, e3]; simp only [min_def]; split_ifs <;> linarith
    · rw [max_eq_left h2, max_eq_right h1]
  · obtain ⟨a1, a2, a3, e1, e2, e3⟩ := key y x z hy hx hz (by linarith) h1 h3
    refine ⟨y, x, z, a1, a2, a3, by linarith, hy, hx, hz, ?_, ?_, ?_⟩
    · rw [min_eq_left h2, min_eq_right h1]
    · rw [e1, e2, e3]; simp only [min_def]; split_ifs <;> linarith
    · rw [max_eq_right h2, max_eq_right h3]
  · obtain ⟨a1, a2, a3, e1, e2, e3⟩ := key y z x hy hz hx (by linarith) h2 h3
    refine ⟨y, z, x, a1, a2, a3, by linarith, hy, hz, hx, ?_, ?_, ?_⟩
    · rw [min_eq_left h2, min_eq_right h1]
    · rw [e1, e2, e3]; simp only [min_def]; split_ifs <;> linarith
    · rw [max_eq_right h2, max_eq_left h3]
  · obtain ⟨a1, a2, a3, e1, e2, e3⟩ := key z y x hz hy hx (by linarith) h2 h1
    refine ⟨z, y, x, a1, a2, a3, by linarith, hz, hy, hx, ?_, ?_, ?_⟩
    · rw [min_eq_right h2, min_eq_right (by linarith)]
    · rw [e1, e2, e3]; simp only [min_def]; split_ifs <;> linarith
    · rw [max_eq_left h2, max_eq_left h1]
  · obtain ⟨a1, a2, a3, e1, e2, e3⟩ := key z y x hz hy hx (by linarith) h2 h1
    refine ⟨z, y, x, a1, a2, a3, by linarith, hz, hy, hx, ?_, ?_, ?_⟩
    · rw [min_eq_right h2, min_eq_right h3]
    · rw [e1, e2, e3]; simp only [min_def]; split_ifs <;> linarith
    · rw [max_eq_left h2, max_eq_left h1]

/-! ### The cube roots of the program -/

section Roots

variable {P : Planet} {k n : ℕ}

theorem rpow_half {x : ℝ} : x ^ (0.5 : ℝ) = Real.sqrt x := by
  rw [Real.sqrt_eq_rpow]; norm_num

theorem delta0_eq (P : Planet) (k n : ℕ) : delta0 P k n =
    3 * (P.G * P.H0 * k ^ 2 / P.A ^ 2 + (2 * n + 1) * (2 * P.OMEGA / P.A) * Real.sqrt (P.G * P.H0)) := by
  rw [delta0, rpow_half]; ring

theorem delta4_eq (P : Planet) (k : ℕ) :
    delta4 P k = 27 * (-((2 * P.OMEGA / P.A) * (P.G * P.H0) * k / P.A)) := by
  rw [delta4]; ring

theorem dispersion_iff (P : Planet) (k n : ℕ) (w : ℝ) :
    Dispersion P k n w ↔ w ^ 3 - (delta0 P k n / 3) * w + delta4 P k / 27 = 0 := by
  rw [Dispersion, delta0_eq, delta4_eq]
  constructor <;> intro h <;> linear_combination h

theorem delta0_pos (hP : Physical P) : 0 < delta0 P k n := by
  obtain ⟨h1, h2, h3, h4⟩ := hP
  rw [delta0_eq]
  have : 0 < Real.sqrt (P.G * P.H0) := Real.sqrt_pos.2 (mul_pos h2 h4)
  positivity

theorem delta4_neg (hP : Physical P) (hk : 1 ≤ k) : delta4 P k < 0 := by
  obtain ⟨h1, h2, h3, h4⟩ := hP
  rw [delta4_eq]
  have : (0 : ℝ) < k := by exact_mod_cast hk
  have : 0 < (2 * P.OMEGA / P.A) * (P.G * P.H0) * k / P.A := by positivity
  linarith

/-- For `n ≥ 1` the cubic has three different real roots. -/
theorem discriminant (hP : Physical P) (hk : 1 ≤ k) (hn : 1 ≤ n) : delta4 P k ^ 2 < 4 * delta0 P k n ^ 3 := by
  obtain ⟨h1, h2, h3, h4⟩ := hP
  have hk' : (0 : ℝ) < k := by exact_mod_cast hk
  have hn' : (1 : ℝ) ≤ n := by exact_mod_cast hn
  set c := Real.sqrt (P.G * P.H0) with hc
  have hc0 : 0 < c := Real.sqrt_pos.2 (mul_pos h2 h4)
  have hcc : P.G * P.H0 = c ^ 2 := (Real.sq_sqrt (mul_pos h2 h4).le).symm
  obtain ⟨s, hs⟩ : ∃ s, s = c * k / P.A := ⟨_, rfl⟩
  obtain ⟨b, hb⟩ : ∃ b, b = 2 * P.OMEGA * c / P.A := ⟨_, rfl⟩
  have hs0 : 0 < s := by rw [hs]; positivity
  have hb0 : 0 < b := by rw [hb]; positivity
  have e4 : delta4 P k = -27 * (b * s) := by
    rw [delta4_eq, hcc, hb, hs]; ring
  have e0 : delta0 P k n = 3 * (s ^ 2 + (2 * n + 1) * b) := by
    rw [delta0_eq, ← hc, hcc, hb, hs]; ring
  rw [e4, e0]
  have h5 : s ^ 2 + 3 * b ≤ s ^ 2 + (2 * n + 1) * b := by nlinarith
  have h6 : (s ^ 2 + 3 * b) ^ 3 ≤ (s ^ 2 + (2 * n + 1) * b) ^ 3 := pow_le_pow_left₀ (by positivity) h5 3
  have h7 : 729 * (b ^ 2 * s ^ 2) < 108 * (s ^ 2 + 3 * b) ^ 3 := by
    have : 0 < s ^ 6 := by positivity
    have : 0 < s ^ 4 * b := by positivity
    have : 0 < s ^ 2 * b ^ 2 := by positivity
    have : 0 < b ^ 3 := by positivity
    nlinarith
  calc (-27 * (b * s)) ^ 2 = 729 * (b ^ 2 * s ^ 2) := by ring
    _ < 108 * (s ^ 2 + 3 * b) ^ 3 := h7
    _ ≤ 108 * (s ^ 2 + (2 * n + 1) * b) ^ 3 := by linarith
    _ = _ := by ring

open Complex in
/-- The cube root of the loop, without the root of unity. -/
noncomputable def cubeRoot (P : Planet) (k n : ℕ) : ℂ :=
  (0.5 * ((delta4 P k : ℂ) + ((delta4 P k : ℂ) ^ 2 - 4 * (delta0 P k n : ℂ) ^ 3 + 0 * I) ^ (0.5 : ℂ))) ^ (1 / 3 : ℂ)

open Complex in
theorem deltaj_eq (P : Planet) (k n j : ℕ) :
    deltaj P k n j = cubeRoot P k n * exp (2 * Real.pi * I * j / 3) := rfl

open Complex in
theorem unity_cubed (j : ℕ) : exp (2 * Real.pi * I * j / 3) ^ 3 = 1 := by
  rw [← exp_nat_mul, Complex.exp_eq_one_iff]
  exact ⟨j, by push_cast; ring⟩

open Complex in
/-- The square root of the loop: its square is the discriminant and it is purely imaginary. -/
theorem sqrt_facts (hP : Physical P) (hk : 1 ≤ k) (hn : 1 ≤ n) :
    ∃ r : ℝ, r ^ 2 = 4 * delta0 P k n ^ 3 - delta4 P k ^ 2 ∧
      ((delta4 P k : ℂ) ^ 2 - 4 * (delta0 P k n : ℂ) ^ 3 + 0 * I) ^ (0.5 : ℂ) = r * I := by
  set S := ((delta4 P k : ℂ) ^ 2 - 4 * (delta0 P k n : ℂ) ^ 3 + 0 * I) ^ (0.5 : ℂ) with hS
  have h2 : S ^ 2 = ((delta4 P k ^ 2 - 4 * delta0 P k n ^ 3 : ℝ) : ℂ) := by
    rw [hS, ← Complex.cpow_mul_nat]
    norm_num
  have hd := discriminant hP hk hn
  have hre := congrArg Complex.re h2
  have him := congrArg Complex.im h2
  rw [pow_two, Complex.mul_re, Complex.ofReal_re] at hre
  rw [pow_two, Complex.mul_im, Complex.ofReal_im] at him
  have hre0 : S.re = 0 := by
    by_contra h
    have : S.im = 0 := by
      have : S.re * S.im = 0 := by linarith
      rcases mul_eq_zero.1 this with h' | h'
      · exact absurd h' h
      · exact h'
    rw [this] at hre
    nlinarith [mul_self_nonneg S.re]
  refine ⟨S.im, ?_, ?_⟩
  · rw [hre0] at hre; nlinarith
  · apply Complex.ext
    · simp [hre0]
    · simp

open Complex in
/-- The cube of `deltaj` and its modulus. -/
theorem deltaj_facts (hP : Physical P) (hk : 1 ≤ k) (hn : 1 ≤ n) (j : ℕ) :
    (deltaj P k n j ^ 3) ^ 2 - delta4 P k * deltaj P k n j ^ 3 + (delta0 P k n : ℂ) ^ 3 = 0 ∧
      normSq (deltaj P k n j) = delta0 P k n := by
  obtain ⟨r, hr, hS⟩ := sqrt_facts hP hk hn
  have hC3 : deltaj P k n j ^ 3 = 0.5 * ((delta4 P k : ℂ) + r * I) := by
    rw [deltaj_eq, mul_pow, unity_cubed, mul_one, cubeRoot, hS, ← Complex.cpow_mul_nat]
    norm_num
  have hrC : (r : ℂ) ^ 2 = 4 * (delta0 P k n : ℂ) ^ 3 - (delta4 P k : ℂ) ^ 2 := by exact_mod_cast hr
  refine ⟨?_, ?_⟩
  · rw [hC3]
    have : (I : ℂ) ^ 2 = -1 := Complex.I_sq
    have h05 : (0.5 : ℂ) = 1 / 2 := by norm_num
    rw [h05]
    linear_combination (r ^ 2 / 4 : ℂ) * this - hrC / 4
  · have h1 : normSq (deltaj P k n j) ^ 3 = delta0 P k n ^ 3 := by
      rw [← map_pow, hC3, map_mul, Complex.normSq_apply, Complex.normSq_apply]
      have e : (0.5 : ℂ) = ((1 / 2 : ℝ) : ℂ) := by norm_num
      rw [e]
      simp
      linear_combination hr / 4
    exact (pow_left_inj₀ (Complex.normSq_nonneg _) (delta0_pos hP).le (by norm_num)).1 h1

open Complex in
/-- Every entry of `omegaj` is (exactly, not only up to an imaginary part that is thrown away) the number in front of
`np.real`. -/
theorem omegaj_complex (hP : Physical P) (hk : 1 ≤ k) (hn : 1 ≤ n) (j : ℕ) :
    (omegaj P k n j : ℂ) = -1 / 3 * (deltaj P k n j + delta0 P k n / deltaj P k n j) ∧
      omegaj P k n j = -2 / 3 * (deltaj P k n j).re ∧ deltaj P k n j ≠ 0 := by
  obtain ⟨-, h⟩ := deltaj_facts hP hk hn j
  set C := deltaj P k n j with hC
  have hC0 : C ≠ 0 := by
    intro h0
    rw [h0, map_zero] at h
    exact (delta0_pos (k := k) (n := n) hP).ne h
  have hconj : (delta0 P k n : ℂ) / C = (starRingEnd ℂ) C := by
    rw [div_eq_iff hC0, ← h, Complex.normSq_eq_conj_mul_self]
  have e : -1 / 3 * (C + delta0 P k n / C) = ((-2 / 3 * C.re : ℝ) : ℂ) := by
    rw [hconj, Complex.add_conj]; push_cast; ring
  have e2 : omegaj P k n j = -2 / 3 * C.re := by
    rw [omegaj, ← hC, e, Complex.ofReal_re]
  refine ⟨?_, e2, hC0⟩
  rw [e, e2]

open Complex in
/-- Every entry of `omegaj` satisfies the dispersion relation. -/
theorem omegaj_root (hP : Physical P) (hk : 1 ≤ k) (hn : 1 ≤ n) (j : ℕ) :
    omegaj P k n j ^ 3 - (delta0 P k n / 3) * omegaj P k n j + delta4 P k / 27 = 0 := by
  obtain ⟨h1, -, hC0⟩ := omegaj_complex hP hk hn j
  obtain ⟨h3, -⟩ := deltaj_facts hP hk hn j
  set C := deltaj P k n j with hC
  have : ((omegaj P k n j ^ 3 - (delta0 P k n / 3) * omegaj P k n j + delta4 P k / 27 : ℝ) : ℂ) = 0 := by
    push_cast
    rw [h1]
    have hc3 : C ^ 3 ≠ 0 := pow_ne_zero _ hC0
    field_simp
    linear_combination -27 * h3
  exact_mod_cast this

open Complex in
/-- The three entries of `omegaj` add up to zero. -/
theorem omegaj_sum (hP : Physical P) (hk : 1 ≤ k) (hn : 1 ≤ n) :
    omegaj P k n 1 + omegaj P k n 2 + omegaj P k n 3 = 0 := by
  rw [(omegaj_complex hP hk hn 1).2.1, (omegaj_complex hP hk hn 2).2.1, (omegaj_complex hP hk hn 3).2.1]
  have hz : exp (2 * Real.pi * I * (1 : ℕ) / 3) + exp (2 * Real.pi * I * (2 : ℕ) / 3)
      + exp (2 * Real.pi * I * (3 : ℕ) / 3) = 0 := by
    set ζ := exp (2 * Real.pi * I * (1 : ℕ) / 3) with hζ
    have h2 : exp (2 * Real.pi * I * (2 : ℕ) / 3) = ζ ^ 2 := by
      rw [hζ, ← exp_nat_mul]; congr 1; push_cast; ring
    have h3 : exp (2 * Real.pi * I * (3 : ℕ) / 3) = 1 := by
      rw [Complex.exp_eq_one_iff]; exact ⟨1, by push_cast; ring⟩
    have hc : ζ ^ 3 = 1 := unity_cubed 1
    have hne : ζ ≠ 1 := by
      rw [hζ, Ne, Complex.exp_eq_one_iff]
      rintro ⟨m, hm⟩
      have hpi : (2 * Real.pi * I : ℂ) ≠ 0 := by
        simp [Real.pi_ne_zero]
      have h1 : (2 * Real.pi * I : ℂ) * (1 / 3) = 2 * Real.pi * I * m := by
        rw [← mul_comm (m : ℂ), ← hm]; push_cast; ring
      have h4 := mul_left_cancel₀ hpi h1
      have h5 : (3 * m : ℂ) = 1 := by rw [← h4]; norm_num
      have h6 : (3 * m : ℤ) = 1 := by exact_mod_cast h5
      omega
    rw [h2, h3]
    have : (ζ - 1) * (ζ + ζ ^ 2 + 1) = 0 := by linear_combination hc
    rcases mul_eq_zero.1 this with h | h
    · exact absurd (sub_eq_zero.1 h) hne
    · exact h
  have : (deltaj P k n 1 + deltaj P k n 2 + deltaj P k n 3).re = 0 := by
    rw [deltaj_eq, deltaj_eq, deltaj_eq, ← mul_add, ← mul_add, hz, mul_zero, Complex.zero_re]
  rw [Complex.add_re, Complex.add_re] at this
  linarith

/-- **The frequencies.**  For every planet and every pair of wave numbers `k, n ≥ 1`, the three frequencies of the
program satisfy the dispersion relation, are different, no other real number satisfies it, and they are labelled the
way the literature does: the Rossby wave goes west (negative frequency) and is the slower of the two westward waves,
`WIG` (westward inertia-gravity) is the faster, `EIG` (eastward inertia-gravity) is the only one that goes east. -/
theorem C71_frequencies (hP : Physical P) (hk : 1 ≤ k) (hn : 1 ≤ n) :
    omega P k n .WIG < omega P k n .Rossby ∧ omega P k n .Rossby < 0 ∧ 0 < omega P k n .EIG ∧
      ∀ w, Dispersion P k n w ↔ w = omega P k n .WIG ∨ w = omega P k n .Rossby ∨ w = omega P k n .EIG := by
  have hd := discriminant hP hk hn
  obtain ⟨a, b, c, h1, h2, h3, h4, h5, h6, h7, h8, h9, h10⟩ :=
    pick_roots (B := delta0 P k n / 3) (q := delta4 P k / 27) (by nlinarith) (by linarith [delta4_neg (k := k) hP hk])
      (omegaj_root hP hk hn 1) (omegaj_root hP hk hn 2) (omegaj_root hP hk hn 3) (omegaj_sum hP hk hn)
  have e1 : omega P k n .WIG = a := h8
  have e2 : omega P k n .Rossby = b := h9
  have e3 : omega P k n .EIG = c := h10
  rw [e1, e2, e3]
  refine ⟨h1, h2, h3, fun w => ?_⟩
  rw [dispersion_iff]
  constructor
  · exact all_roots h5 h6 h4 h1 w
  · rintro (rfl | rfl | rfl) <;> assumption

/-- The square of a root of the dispersion relation is never `(c k / a)²`: the prefactor of the amplitudes of `u` and
`φ` divides by a number that is not zero. -/
theorem denominator_ne (hP : Physical P) (hk : 1 ≤ k) (hn : 1 ≤ n) {w : ℝ} (hw : Dispersion P k n w) :
    w ^ 2 - P.G * P.H0 * (k / P.A) ^ 2 ≠ 0 := by
  obtain ⟨h1, h2, h3, h4⟩ := hP
  have hk' : (0 : ℝ) < k := by exact_mod_cast hk
  have hn' : (1 : ℝ) ≤ n := by exact_mod_cast hn
  intro h0
  set c := Real.sqrt (P.G * P.H0) with hc
  have hc0 : 0 < c := Real.sqrt_pos.2 (mul_pos h2 h4)
  have hcc : P.G * P.H0 = c ^ 2 := (Real.sq_sqrt (mul_pos h2 h4).le).symm
  rw [Dispersion, ← hc, hcc] at hw
  rw [hcc] at h0
  have hA : P.A ≠ 0 := h3.ne'
  have h5 : 2 * P.OMEGA * c / P.A * ((2 * n + 1) * w + c * k / P.A) = 0 := by
    linear_combination w * h0 - hw
  have h6 : (2 * n + 1) * w + c * k / P.A = 0 := by
    rcases mul_eq_zero.1 h5 with h | h
    · exfalso
      have : 0 < 2 * P.OMEGA * c / P.A := by positivity
      exact this.ne' h
    · exact h
  obtain ⟨s, hs⟩ : ∃ s, s = c * k / P.A := ⟨_, rfl⟩
  have hs0 : 0 < s := by rw [hs]; positivity
  rw [← hs] at h6
  have h7 : w ^ 2 = s ^ 2 := by rw [hs]; linear_combination h0
  have h8 : s = -((2 * n + 1) * w) := by linarith
  have h9 : ((2 * n + 1) ^ 2 - 1) * w ^ 2 = 0 := by rw [h8] at h7; linear_combination -h7
  have h10 : w ^ 2 ≠ 0 := by rw [h7]; positivity
  have h11 : (0 : ℝ) < (2 * n + 1) ^ 2 - 1 := by nlinarith
  rcases mul_eq_zero.1 h9 with h | h
  · exact h11.ne' h
  · exact h10 h

end Roots

/-! ### Hermite functions -/

/-- The recurrence with square roots of `n / 2`. -/
theorem hermite_rec (x : ℝ) (n : ℕ) : Real.sqrt (((n + 1 : ℕ) + 1 : ℝ) / 2) * hermite x (n + 2) =
    x * hermite x (n + 1) - Real.sqrt ((n + 1 : ℕ) / 2) * hermite x n := by
  rw [hermite, rpow_half, rpow_half]
  have hn : (0 : ℝ) < ((n + 2 : ℕ) : ℝ) := by positivity
  have e1 : Real.sqrt (((n + 1 : ℕ) + 1 : ℝ) / 2) * Real.sqrt (2 / ((n + 2 : ℕ) : ℝ)) = 1 := by
    rw [← Real.sqrt_mul (by positivity), show ((n + 1 : ℕ) + 1 : ℝ) / 2 * (2 / ((n + 2 : ℕ) : ℝ)) = 1 by
      push_cast; field_simp; ring, Real.sqrt_one]
  have e2 : Real.sqrt (((n + 1 : ℕ) + 1 : ℝ) / 2) * Real.sqrt ((((n + 2 : ℕ) : ℝ) - 1) / ((n + 2 : ℕ) : ℝ)) =
      Real.sqrt ((n + 1 : ℕ) / 2) := by
    rw [← Real.sqrt_mul (by positivity)]
    congr 1
    push_cast; field_simp; ring
  linear_combination x * hermite x (n + 1) * e1 - hermite x n * e2

theorem hermite_one (x : ℝ) : Real.sqrt ((0 + 1 : ℝ) / 2) * hermite x 1 = x * hermite x 0 := by
  rw [hermite, hermite]
  have hpi := Real.pi_pos
  rw [Real.div_rpow (by norm_num) hpi.le]
  have e : (4 : ℝ) ^ (0.25 : ℝ) = Real.sqrt 2 := by
    rw [show (4 : ℝ) = 2 ^ (2 : ℝ) by norm_num, ← Real.rpow_mul (by norm_num), Real.sqrt_eq_rpow]; norm_num
  rw [e]
  have e2 : Real.sqrt ((0 + 1 : ℝ) / 2) * Real.sqrt 2 = 1 := by
    rw [← Real.sqrt_mul (by norm_num)]; norm_num
  linear_combination x / Real.pi ^ (0.25 : ℝ) * e2

/-- The derivative of the normalized Hermite polynomials: `H_{n+1}' = 2 √((n+1)/2) H_n`. -/
theorem hermite_deriv (x : ℝ) : ∀ n : ℕ,
    HasDerivAt (fun s => hermite s (n + 1)) (2 * Real.sqrt (((n : ℝ) + 1) / 2) * hermite x n) x
  | 0 => by
    have h0 : ∀ s, hermite s 0 = hermite 0 0 := fun s => rfl
    have h1 : (fun s => hermite s (0 + 1)) = fun s => (2 * Real.sqrt (((0 : ℕ) + 1 : ℝ) / 2) * hermite 0 0) * s := by
      funext s
      have := hermite_one s
      have e : Real.sqrt ((0 + 1 : ℝ) / 2) ^ 2 = 1 / 2 := by rw [Real.sq_sqrt (by norm_num)]; norm_num
      rw [h0 s] at this
      push_cast
      linear_combination 2 * Real.sqrt ((0 + 1 : ℝ) / 2) * this - 2 * hermite s 1 * e
    rw [h1, h0 x]
    simpa using (hasDerivAt_id x).const_mul (2 * Real.sqrt (((0 : ℕ) + 1 : ℝ) / 2) * hermite 0 0)
  | 1 => by
    have h1 := hermite_deriv x 0
    have h0 : HasDerivAt (fun s => hermite s 0) 0 x := by
      simpa [hermite] using hasDerivAt_const x (1 / Real.pi ^ (0.25 : ℝ))
    have e : (fun s => hermite s (1 + 1)) = fun s => (Real.sqrt (((0 + 1 : ℕ) + 1 : ℝ) / 2))⁻¹ *
        (s * hermite s (0 + 1) - Real.sqrt ((0 + 1 : ℕ) / 2) * hermite s 0) := by
      funext s
      have := hermite_rec s 0
      have h : Real.sqrt (((0 + 1 : ℕ) + 1 : ℝ) / 2) ≠ 0 := (Real.sqrt_pos.2 (by positivity)).ne'
      rw [← this, ← mul_assoc, inv_mul_cancel₀ h, one_mul]
    rw [e]
    have h : HasDerivAt (fun s => (Real.sqrt (((0 + 1 : ℕ) + 1 : ℝ) / 2))⁻¹ *
        (s * hermite s (0 + 1) - Real.sqrt ((0 + 1 : ℕ) / 2) * hermite s 0)) _ x :=
      (((hasDerivAt_id x).mul h1).sub (h0.const_mul (Real.sqrt ((0 + 1 : ℕ) / 2)))).const_mul
      ((Real.sqrt (((0 + 1 : ℕ) + 1 : ℝ) / 2))⁻¹)
    refine h.congr_deriv ?_
    simp only [id]
    have hr := hermite_one x
    have e1 : Real.sqrt (((0 + 1 : ℕ) + 1 : ℝ) / 2) = 1 := by norm_num
    rw [e1]
    push_cast at *
    have e2 : Real.sqrt ((0 + 1 : ℝ) / 2) ^ 2 = 1 / 2 := by rw [Real.sq_sqrt (by norm_num)]; norm_num
    rw [inv_one]
    linear_combination -2 * Real.sqrt ((0 + 1 : ℝ) / 2) * hr + 2 * hermite x 1 * e2
  | n + 2 => by
    have h1 := hermite_deriv x (n + 1)
    have h0 := hermite_deriv x n
    have hpos : Real.sqrt (((n + 1 + 1 : ℕ) + 1 : ℝ) / 2) ≠ 0 := (Real.sqrt_pos.2 (by positivity)).ne'
    have e : (fun s => hermite s (n + 2 + 1)) = fun s => (Real.sqrt (((n + 1 + 1 : ℕ) + 1 : ℝ) / 2))⁻¹ *
        (s * hermite s (n + 1 + 1) - Real.sqrt ((n + 1 + 1 : ℕ) / 2) * hermite s (n + 1)) := by
      funext s
      have := hermite_rec s (n + 1)
      rw [← this, ← mul_assoc, inv_mul_cancel₀ hpos, one_mul]
    rw [e]
    have h : HasDerivAt (fun s => (Real.sqrt (((n + 1 + 1 : ℕ) + 1 : ℝ) / 2))⁻¹ *
        (s * hermite s (n + 1 + 1) - Real.sqrt ((n + 1 + 1 : ℕ) / 2) * hermite s (n + 1))) _ x :=
      (((hasDerivAt_id x).mul h1).sub (h0.const_mul (Real.sqrt ((n + 1 + 1 : ℕ) / 2)))).const_mul
      ((Real.sqrt (((n + 1 + 1 : ℕ) + 1 : ℝ) / 2))⁻¹)
    refine h.congr_deriv ?_
    simp only [id]
    symm
    have r0 := hermite_rec x n
    have s1 : Real.sqrt (((n + 1 + 1 : ℕ) + 1 : ℝ) / 2) ^ 2 = ((n : ℝ) + 3) / 2 := by
      rw [Real.sq_sqrt (by positivity)]; push_cast; ring
    have s2 : Real.sqrt (((n + 1 : ℕ) + 1 : ℝ) / 2) ^ 2 = ((n : ℝ) + 2) / 2 := by
      rw [Real.sq_sqrt (by positivity)]; push_cast; ring
    have ea : ((n + 2 : ℕ) : ℝ) + 1 = ((n + 1 + 1 : ℕ) : ℝ) + 1 := by push_cast; ring
    have eb : ((n + 1 + 1 : ℕ) : ℝ) / 2 = ((n + 1 : ℕ) + 1 : ℝ) / 2 := by push_cast; ring
    have ec : ((n : ℝ) + 1) / 2 = ((n + 1 : ℕ) : ℝ) / 2 := by push_cast; ring
    rw [ea, eb, ec, eq_inv_mul_iff_mul_eq₀ hpos]
    linear_combination 2 * hermite x (n + 2) * s1 - 2 * hermite x (n + 2) * s2 +
      2 * Real.sqrt (((n + 1 : ℕ) + 1 : ℝ) / 2) * r0

/-- The two derivative formulas of the Hermite functions used below. -/
theorem hermite_pair (x : ℝ) (n : ℕ) :
    HasDerivAt (fun s => hermite s (n + 1)) (2 * Real.sqrt (((n : ℝ) + 1) / 2) * hermite x n) x ∧
    HasDerivAt (fun s => hermite s n) (2 * x * hermite x n - 2 * Real.sqrt (((n : ℝ) + 1) / 2) * hermite x (n + 1))
      x := by
  refine ⟨hermite_deriv x n, ?_⟩
  cases n with
  | zero =>
    have h0 : HasDerivAt (fun s => hermite s 0) 0 x := by
      simpa [hermite] using hasDerivAt_const x (1 / Real.pi ^ (0.25 : ℝ))
    convert h0 using 1
    have := hermite_one x
    push_cast
    linear_combination -2 * this
  | succ m =>
    convert hermite_deriv x m using 1
    have := hermite_rec x m
    have ec : ((m : ℝ) + 1) / 2 = ((m + 1 : ℕ) : ℝ) / 2 := by push_cast; ring
    rw [ec]
    linear_combination -2 * this

/-! ### The fields -/

/-- `θ = k λ − ω t`, the phase of the wave. -/
noncomputable def phase (k : ℕ) (w lon t : ℝ) : ℝ := k * lon - w * t

section Fields

variable {P : Planet} {k n : ℕ} {amp w : ℝ}

/-- The scale of latitude, `Λ^¼`. -/
noncomputable def scale (P : Planet) : ℝ := lamb P ^ (0.25 : ℝ)

theorem scale_sq (hP : Physical P) : scale P ^ 2 = 2 * P.OMEGA * P.A / Real.sqrt (P.G * P.H0) := by
  obtain ⟨h1, h2, h3, h4⟩ := hP
  have hc : 0 < Real.sqrt (P.G * P.H0) := Real.sqrt_pos.2 (mul_pos h2 h4)
  have e : lamb P = (2 * P.OMEGA * P.A / Real.sqrt (P.G * P.H0)) ^ 2 := by
    rw [lamb, div_pow, Real.sq_sqrt (mul_pos h2 h4).le]
  have h0 : 0 ≤ lamb P := by rw [e]; positivity
  rw [scale, ← Real.rpow_natCast, ← Real.rpow_mul h0, show (0.25 : ℝ) * ((2 : ℕ) : ℝ) = 1 / 2 by norm_num,
    ← Real.sqrt_eq_rpow, e, Real.sqrt_sq (by positivity)]

/-- The amplitude of the meridional wind as a function of latitude: value and derivative, in the two forms. -/
theorem meridional_deriv (P : Planet) (n : ℕ) (amp lat : ℝ) :
    HasDerivAt (fun s => meridional s (lamb P) (n + 1) amp)
      (scale P * (2 * Real.sqrt (((n : ℝ) + 1) / 2) * meridional lat (lamb P) n amp
        - scale P * lat * meridional lat (lamb P) (n + 1) amp)) lat ∧
    HasDerivAt (fun s => meridional s (lamb P) n amp)
      (scale P * (scale P * lat * meridional lat (lamb P) n amp
        - 2 * Real.sqrt (((n : ℝ) + 1) / 2) * meridional lat (lamb P) (n + 1) amp)) lat := by
  have hy : HasDerivAt (fun s => scale P * s) (scale P) lat := by
    simpa using (hasDerivAt_id lat).const_mul (scale P)
  have hex : HasDerivAt (fun s => Real.exp (-0.5 * (scale P * s) ^ 2))
      (Real.exp (-0.5 * (scale P * lat) ^ 2) * (-(scale P * lat) * scale P)) lat := by
    have h : HasDerivAt (fun s => Real.exp (-0.5 * (scale P * s) ^ 2)) _ lat :=
      ((hy.pow 2).const_mul (-0.5 : ℝ)).exp
    refine h.congr_deriv ?_
    simp; ring
  obtain ⟨d1, d2⟩ := hermite_pair (scale P * lat) n
  have g1 : HasDerivAt (fun s => hermite (scale P * s) (n + 1)) _ lat := d1.comp lat hy
  have g2 : HasDerivAt (fun s => hermite (scale P * s) n) _ lat := d2.comp lat hy
  constructor
  · have h : HasDerivAt (fun s => meridional s (lamb P) (n + 1) amp) _ lat := (hex.const_mul amp).mul g1
    refine h.congr_deriv ?_
    simp only [meridional]
    rw [← scale]
    ring
  · have h : HasDerivAt (fun s => meridional s (lamb P) n amp) _ lat := (hex.const_mul amp).mul g2
    refine h.congr_deriv ?_
    simp only [meridional]
    rw [← scale]
    ring

/-- The recurrence, for the amplitudes: `y v_{n+1} = √((n+2)/2) v_{n+2} + √((n+1)/2) v_n`. -/
theorem meridional_rec (P : Planet) (n : ℕ) (amp lat : ℝ) :
    scale P * lat * meridional lat (lamb P) (n + 1) amp =
      Real.sqrt (((n + 1 : ℕ) + 1 : ℝ) / 2) * meridional lat (lamb P) (n + 2) amp +
        Real.sqrt ((n + 1 : ℕ) / 2) * meridional lat (lamb P) n amp := by
  simp only [meridional]
  rw [← scale]
  linear_combination -(amp * Real.exp (-0.5 * (scale P * lat) ^ 2)) * hermite_rec (scale P * lat) n

/-- The real factor of the amplitudes of `u` and `φ`. -/
noncomputable def realPrefactor (P : Planet) (k : ℕ) (w : ℝ) : ℝ :=
  P.G * P.H0 * scale P / (P.A * (w ^ 2 - P.G * P.H0 * (k / P.A) ^ 2))

/-- The (real) amplitude of `u` after taking out `-i`. -/
noncomputable def uAmp (P : Planet) (k n : ℕ) (amp w lat : ℝ) : ℝ :=
  realPrefactor P k w * (-(Real.sqrt ((n + 1) / 2)) * (w / Real.sqrt (P.G * P.H0) + k / P.A) *
      meridional lat (lamb P) (n + 1) amp
    - Real.sqrt (n / 2) * (w / Real.sqrt (P.G * P.H0) - k / P.A) * meridional lat (lamb P) (n - 1) amp)

/-- The (real) amplitude of `φ` after taking out `-i`. -/
noncomputable def pAmp (P : Planet) (k n : ℕ) (amp w lat : ℝ) : ℝ :=
  realPrefactor P k w * (-(Real.sqrt ((n + 1) / 2)) * (w + Real.sqrt (P.G * P.H0) * k / P.A) *
      meridional lat (lamb P) (n + 1) amp
    + Real.sqrt (n / 2) * (w - Real.sqrt (P.G * P.H0) * k / P.A) * meridional lat (lamb P) (n - 1) amp)

theorem prefactor_eq (P : Planet) (k : ℕ) (w : ℝ) :
    prefactor P k w = -Complex.I * (realPrefactor P k w : ℂ) := by
  rw [prefactor, realPrefactor, ← scale]
  push_cast
  rw [mul_assoc Complex.I, ← div_div, div_right_comm, div_eq_mul_inv _ Complex.I, Complex.inv_I]
  ring

theorem re_sin (θ r : ℝ) : (Complex.exp (Complex.I * θ) * (-Complex.I * r)).re = Real.sin θ * r := by
  rw [mul_comm Complex.I, Complex.exp_mul_I, ← Complex.ofReal_cos, ← Complex.ofReal_sin]
  simp only [Complex.mul_re, Complex.add_re, Complex.add_im, Complex.neg_re, Complex.neg_im, Complex.mul_im,
    Complex.I_re, Complex.I_im, Complex.ofReal_re, Complex.ofReal_im]
  ring

theorem re_cos (θ r : ℝ) : (Complex.exp (Complex.I * θ) * (r : ℂ)).re = Real.cos θ * r := by
  rw [mul_comm Complex.I, Complex.exp_mul_I, ← Complex.ofReal_cos, ← Complex.ofReal_sin]
  simp only [Complex.mul_re, Complex.add_re, Complex.add_im, Complex.neg_re, Complex.neg_im, Complex.mul_im,
    Complex.I_re, Complex.I_im, Complex.ofReal_re, Complex.ofReal_im]
  ring

theorem phase_cast (k : ℕ) (w lon t : ℝ) : (k * lon - w * t : ℂ) = ((phase k w lon t : ℝ) : ℂ) := by
  rw [phase]; push_cast; ring

theorem field_v (P : Planet) (lat lon t : ℝ) (k n : ℕ) (amp w : ℝ) :
    fieldAt P lat lon t k n amp .v w = Real.cos (phase k w lon t) * meridional lat (lamb P) n amp := by
  simp only [fieldAt, amplitude, phase_cast]
  exact re_cos _ _

theorem field_u (P : Planet) (lat lon t : ℝ) (k n : ℕ) (amp w : ℝ) :
    fieldAt P lat lon t k n amp .u w = Real.sin (phase k w lon t) * uAmp P k n amp w lat := by
  simp only [fieldAt, amplitude, phase_cast, prefactor_eq, rpow_half]
  rw [mul_assoc (-Complex.I), ← Complex.ofReal_mul]
  exact re_sin _ _

theorem field_p (P : Planet) (lat lon t : ℝ) (k n : ℕ) (amp w : ℝ) :
    fieldAt P lat lon t k n amp .phi w = Real.sin (phase k w lon t) * pAmp P k n amp w lat + P.G * P.H0 := by
  simp only [fieldAt, amplitude, phase_cast, prefactor_eq, rpow_half]
  rw [mul_assoc (-Complex.I), ← Complex.ofReal_mul, re_sin]
  rfl

theorem phase_t (k : ℕ) (w lon t : ℝ) : HasDerivAt (fun s => phase k w lon s) (-w) t := by
  have := ((hasDerivAt_id t).const_mul w).const_sub (k * lon)
  simpa [phase] using this

theorem phase_x (k : ℕ) (w lon t : ℝ) : HasDerivAt (fun s => phase k w s t) k lon := by
  have := ((hasDerivAt_id lon).const_mul (k : ℝ)).sub_const (w * t)
  simpa [phase] using this

theorem alg_zonal {A c w k K L O lat V Vp Vm S1 S2 : ℝ} (hA : A ≠ 0) (hc : c ≠ 0)
    (hK : K * (A * (w ^ 2 - c ^ 2 * (k / A) ^ 2)) = c ^ 2 * L) (hL : L ^ 2 * c = 2 * O * A)
    (hrec : L * lat * V = S1 * Vp + S2 * Vm) :
    -w * (K * (-S1 * (w / c + k / A) * Vp - S2 * (w / c - k / A) * Vm)) - 2 * O * lat * V
      + k * (K * (-S1 * (w + c * k / A) * Vp + S2 * (w - c * k / A) * Vm)) / A = 0 := by
  have h1 : -w * (K * (-S1 * (w / c + k / A) * Vp - S2 * (w / c - k / A) * Vm))
      + k * (K * (-S1 * (w + c * k / A) * Vp + S2 * (w - c * k / A) * Vm)) / A =
      K * (A * (w ^ 2 - c ^ 2 * (k / A) ^ 2)) * (S1 * Vp + S2 * Vm) / (A * c) := by
    field_simp; ring
  rw [hK, ← hrec] at h1
  have h2 : c ^ 2 * L * (L * lat * V) / (A * c) = 2 * O * lat * V := by
    rw [div_eq_iff (mul_ne_zero hA hc)]; linear_combination c * lat * V * hL
  linarith

theorem alg_meridional {A c w k K L O lat V Vp Vm S1 S2 m : ℝ} (hA : A ≠ 0) (hc : c ≠ 0)
    (hD : w ^ 2 - c ^ 2 * (k / A) ^ 2 ≠ 0)
    (hK : K * (A * (w ^ 2 - c ^ 2 * (k / A) ^ 2)) = c ^ 2 * L) (hL : L ^ 2 * c = 2 * O * A)
    (h1 : S1 ^ 2 = (m + 2) / 2) (h2 : S2 ^ 2 = (m + 1) / 2)
    (hw : w * (w ^ 2 - c ^ 2 * (k / A) ^ 2) = 2 * O * c / A * ((2 * m + 3) * w + c * (k / A))) :
    w * V + 2 * O * lat * (K * (-S1 * (w / c + k / A) * Vp - S2 * (w / c - k / A) * Vm))
      + K * (-S1 * (w + c * k / A) * (L * (2 * S1 * V - L * lat * Vp))
        + S2 * (w - c * k / A) * (L * (L * lat * Vm - 2 * S2 * V))) / A = 0 := by
  have e1 : 2 * O = L ^ 2 * c / A := by rw [eq_div_iff hA, hL]
  have e2 : w * V + 2 * O * lat * (K * (-S1 * (w / c + k / A) * Vp - S2 * (w / c - k / A) * Vm))
      + K * (-S1 * (w + c * k / A) * (L * (2 * S1 * V - L * lat * Vp))
        + S2 * (w - c * k / A) * (L * (L * lat * Vm - 2 * S2 * V))) / A =
      V * (w - 2 * K * L / A * (S1 ^ 2 * (w + c * k / A) + S2 ^ 2 * (w - c * k / A))) := by
    rw [e1]; field_simp; ring
  rw [e2, h1, h2]
  have e3 : (w - 2 * K * L / A * ((m + 2) / 2 * (w + c * k / A) + (m + 1) / 2 * (w - c * k / A))) *
      (w ^ 2 - c ^ 2 * (k / A) ^ 2) = 0 := by
    have e4 : 2 * K * L / A * ((m + 2) / 2 * (w + c * k / A) + (m + 1) / 2 * (w - c * k / A)) *
        (w ^ 2 - c ^ 2 * (k / A) ^ 2) =
        K * (A * (w ^ 2 - c ^ 2 * (k / A) ^ 2)) * L / A ^ 2 * ((2 * m + 3) * w + c * (k / A)) := by
      field_simp; ring
    rw [sub_mul, e4, hK, hw, e1]
    field_simp; ring
  rcases mul_eq_zero.1 e3 with h | h
  · rw [h, mul_zero]
  · exact absurd h hD

theorem alg_continuity {A c w k K L lat V Vp Vm S1 S2 : ℝ} (hA : A ≠ 0) (hc : c ≠ 0)
    (hK : K * (A * (w ^ 2 - c ^ 2 * (k / A) ^ 2)) = c ^ 2 * L)
    (hrec : L * lat * V = S1 * Vp + S2 * Vm) :
    -w * (K * (-S1 * (w + c * k / A) * Vp + S2 * (w - c * k / A) * Vm))
      + c ^ 2 * (k * (K * (-S1 * (w / c + k / A) * Vp - S2 * (w / c - k / A) * Vm))
        + L * (L * lat * V - 2 * S1 * Vp)) / A = 0 := by
  rw [hrec]
  have h1 : -w * (K * (-S1 * (w + c * k / A) * Vp + S2 * (w - c * k / A) * Vm))
      + c ^ 2 * (k * (K * (-S1 * (w / c + k / A) * Vp - S2 * (w / c - k / A) * Vm))
        + L * (S1 * Vp + S2 * Vm - 2 * S1 * Vp)) / A =
      (K * (A * (w ^ 2 - c ^ 2 * (k / A) ^ 2)) - c ^ 2 * L) * (S1 * Vp - S2 * Vm) / A := by
    field_simp; ring
  rw [h1, hK]; ring

/-- The amplitude equations: what is left of the three equations once the dependence on longitude and time is taken
out. -/
theorem amplitudes (hP : Physical P) (hk : 1 ≤ k) (hn : 1 ≤ n) (hw : Dispersion P k n w) (amp lat : ℝ) :
    ∃ vy py, HasDerivAt (fun s => meridional s (lamb P) n amp) vy lat ∧
      HasDerivAt (fun s => pAmp P k n amp w s) py lat ∧
      -w * uAmp P k n amp w lat - 2 * P.OMEGA * lat * meridional lat (lamb P) n amp
        + k * pAmp P k n amp w lat / P.A = 0 ∧
      w * meridional lat (lamb P) n amp + 2 * P.OMEGA * lat * uAmp P k n amp w lat + py / P.A = 0 ∧
      -w * pAmp P k n amp w lat + P.G * P.H0 * (k * uAmp P k n amp w lat + vy) / P.A = 0 := by
  obtain ⟨m, rfl⟩ : ∃ m, n = m + 1 := ⟨n - 1, by omega⟩
  have hD := denominator_ne hP hk hn hw
  have hsc := scale_sq hP
  obtain ⟨h1, h2, h3, h4⟩ := hP
  obtain ⟨dv, dv'⟩ := meridional_deriv P (m + 1) amp lat
  obtain ⟨dm, dm'⟩ := meridional_deriv P m amp lat
  have hrec := meridional_rec P m amp lat
  have hc0 : 0 < Real.sqrt (P.G * P.H0) := Real.sqrt_pos.2 (mul_pos h2 h4)
  have hcc : P.G * P.H0 = Real.sqrt (P.G * P.H0) ^ 2 := (Real.sq_sqrt (mul_pos h2 h4).le).symm
  have hA : P.A ≠ 0 := h3.ne'
  have sp : Real.sqrt ((((m + 1 : ℕ) : ℝ) + 1) / 2) ^ 2 = ((m : ℝ) + 2) / 2 := by
    rw [Real.sq_sqrt (by positivity)]; push_cast; ring
  have sm : Real.sqrt (((m + 1 : ℕ) : ℝ) / 2) ^ 2 = ((m : ℝ) + 1) / 2 := by
    rw [Real.sq_sqrt (by positivity)]; push_cast; ring
  have em : ((m : ℝ) + 1) / 2 = ((m + 1 : ℕ) : ℝ) / 2 := by push_cast; ring
  rw [em] at dm dm'
  have hK : realPrefactor P k w * (P.A * (w ^ 2 - Real.sqrt (P.G * P.H0) ^ 2 * (k / P.A) ^ 2)) =
      Real.sqrt (P.G * P.H0) ^ 2 * scale P := by
    rw [← hcc, realPrefactor, div_mul_cancel₀ _ (mul_ne_zero hA hD)]
  have hL : scale P ^ 2 * Real.sqrt (P.G * P.H0) = 2 * P.OMEGA * P.A := by
    rw [hsc, div_mul_cancel₀ _ hc0.ne']
  have hD' : w ^ 2 - Real.sqrt (P.G * P.H0) ^ 2 * (k / P.A) ^ 2 ≠ 0 := by rw [← hcc]; exact hD
  have hw' : w * (w ^ 2 - Real.sqrt (P.G * P.H0) ^ 2 * (k / P.A) ^ 2) =
      2 * P.OMEGA * Real.sqrt (P.G * P.H0) / P.A * ((2 * m + 3) * w + Real.sqrt (P.G * P.H0) * (k / P.A)) := by
    rw [Dispersion] at hw
    generalize hcdef : Real.sqrt (P.G * P.H0) = c at hw hcc ⊢
    rw [hcc] at hw
    push_cast at hw
    linear_combination hw
  have hpd : HasDerivAt (fun s => pAmp P k (m + 1) amp w s) _ lat :=
    ((dv.const_mul (-(Real.sqrt ((((m + 1 : ℕ) : ℝ) + 1) / 2)) * (w + Real.sqrt (P.G * P.H0) * k / P.A))).add
    (dm'.const_mul (Real.sqrt (((m + 1 : ℕ) : ℝ) / 2) * (w - Real.sqrt (P.G * P.H0) * k / P.A)))).const_mul
      (realPrefactor P k w)
  refine ⟨_, _, dv', hpd, ?_, ?_, ?_⟩
  · exact alg_zonal hA hc0.ne' hK hL hrec
  · exact alg_meridional hA hc0.ne' hD' hK hL sp sm hw'
  · have := alg_continuity hA hc0.ne' hK hrec
    rw [← hcc] at this
    exact this

/-- **The waves are exact solutions.**  For every planet with positive parameters, every `k, n ≥ 1`, every amplitude
and every frequency that satisfies the dispersion relation, the three fields solve the linear shallow-water equations
of the equatorial beta-plane. -/
theorem solves_of_dispersion (hP : Physical P) (hk : 1 ≤ k) (hn : 1 ≤ n) (hw : Dispersion P k n w) (amp : ℝ) :
    BetaPlane.Solves P.OMEGA P.G P.A P.H0 (fun lon lat t => fieldAt P lat lon t k n amp .u w)
      (fun lon lat t => fieldAt P lat lon t k n amp .v w) (fun lon lat t => fieldAt P lat lon t k n amp .phi w) := by
  simp only [field_u, field_v, field_p]
  constructor
  · intro lon lat t
    obtain ⟨vy, py, -, -, h1, -, -⟩ := amplitudes hP hk hn hw amp lat
    refine ⟨_, _, ((phase_t k w lon t).sin).mul_const _, (((phase_x k w lon t).sin).mul_const _).add_const _, ?_⟩
    linear_combination Real.cos (phase k w lon t) * h1
  · intro lon lat t
    obtain ⟨vy, py, -, hp, -, h2, -⟩ := amplitudes hP hk hn hw amp lat
    refine ⟨_, _, ((phase_t k w lon t).cos).mul_const _, (hp.const_mul _).add_const _, ?_⟩
    linear_combination Real.sin (phase k w lon t) * h2
  · intro lon lat t
    obtain ⟨vy, py, hv, -, -, -, h3⟩ := amplitudes hP hk hn hw amp lat
    refine ⟨_, _, _, (((phase_t k w lon t).sin).mul_const _).add_const _, ((phase_x k w lon t).sin).mul_const _,
      hv.const_mul _, ?_⟩
    linear_combination Real.cos (phase k w lon t) * h3

/-- The value of a call of `eval_field`, when it returns one. -/
noncomputable def Result.get : Result ℝ → ℝ
  | .value a => a
  | _ => 0

/-- **What `eval_field` returns.**  For every planet, wave numbers, amplitude and wave-type string: with `k, n ≥ 1`
and one of the three names, every call returns a value, and the values of the three fields, as functions of
longitude, latitude and time, are an exact solution; with a wave number below one every call raises `ValueError`, and
with any other name every call raises `KeyError`. -/
theorem C71_fields (hP : Physical P) (k n : ℕ) (amp : ℝ) (waveType : String) :
    (1 ≤ k → 1 ≤ n → (waveType = "Rossby" ∨ waveType = "WIG" ∨ waveType = "EIG") →
      (∀ lat lon t f, ∃ a, evalField P lat lon t k n amp f waveType = .value a) ∧
      BetaPlane.Solves P.OMEGA P.G P.A P.H0
        (fun lon lat t => Result.get (evalField P lat lon t k n amp .u waveType))
        (fun lon lat t => Result.get (evalField P lat lon t k n amp .v waveType))
        (fun lon lat t => Result.get (evalField P lat lon t k n amp .phi waveType))) ∧
    (k < 1 ∨ n < 1 → ∀ lat lon t f, evalField P lat lon t k n amp f waveType = .valueError) ∧
    (1 ≤ k → 1 ≤ n → waveType ≠ "Rossby" → waveType ≠ "WIG" → waveType ≠ "EIG" →
      ∀ lat lon t f, evalField P lat lon t k n amp f waveType = .keyError) := by
  refine ⟨fun hk hn hname => ?_, fun h lat lon t f => ?_, fun hk hn h1 h2 h3 lat lon t f => ?_⟩
  · obtain ⟨-, -, -, hall⟩ := C71_frequencies hP hk hn
    obtain ⟨w, hw, hd⟩ : ∃ w, evalOmega P k n waveType = .value w ∧ Dispersion P k n w := by
      have hk' : ¬ k < 1 := by omega
      have hn' : ¬ n < 1 := by omega
      rcases hname with rfl | rfl | rfl
      · exact ⟨omega P k n .Rossby, by simp [evalOmega, hk', hn'], (hall _).2 (by simp)⟩
      · exact ⟨omega P k n .WIG, by simp [evalOmega, hk', hn'], (hall _).2 (by simp)⟩
      · exact ⟨omega P k n .EIG, by simp [evalOmega, hk', hn'], (hall _).2 (by simp)⟩
    have he : ∀ lat lon t f, evalField P lat lon t k n amp f waveType = .value (fieldAt P lat lon t k n amp f w) := by
      intro lat lon t f
      rw [evalField, hw]
    refine ⟨fun lat lon t f => ⟨_, he lat lon t f⟩, ?_⟩
    simp only [he, Result.get]
    exact solves_of_dispersion hP hk hn hd amp
  · have : evalOmega P k n waveType = .valueError := by
      rw [evalOmega]
      by_cases hk : k < 1
      · rw [if_pos hk]
      · rw [if_neg hk, if_pos (h.resolve_left hk)]
    rw [evalField, this]
  · have : evalOmega P k n waveType = .keyError := by
      rw [evalOmega, if_neg (by omega), if_neg (by omega), if_neg h1, if_neg h2, if_neg h3]
    rw [evalField, this]

/-- The wave is not the trivial solution: with an amplitude that is not zero the meridional wind of mode one is not
zero at any latitude away from the equator (at a longitude and time where the phase is zero). -/
theorem C71_nontrivial {lat : ℝ} (hP : Physical P) (hlat : lat ≠ 0) (hamp : amp ≠ 0) (k : ℕ) (w : ℝ) :
    fieldAt P lat 0 0 k 1 amp .v w ≠ 0 := by
  have hs : scale P ≠ 0 := by
    intro h
    have := scale_sq hP
    rw [h] at this
    obtain ⟨h1, h2, h3, h4⟩ := hP
    have hc : 0 < Real.sqrt (P.G * P.H0) := Real.sqrt_pos.2 (mul_pos h2 h4)
    have : 0 < 2 * P.OMEGA * P.A / Real.sqrt (P.G * P.H0) := by positivity
    linarith
  rw [field_v, phase]
  simp only [mul_zero, sub_zero, Real.cos_zero, one_mul, meridional, hermite]
  have hpi := Real.pi_pos
  have h4 : (4 / Real.pi) ^ (0.25 : ℝ) ≠ 0 := (Real.rpow_pos_of_pos (by positivity) _).ne'
  exact mul_ne_zero (mul_ne_zero hamp (Real.exp_ne_zero _)) (mul_ne_zero h4 (mul_ne_zero hs hlat))

/-- The initial state of the test case: at every point of the grid, for each of the three wave types, the wind and
depth are those of an exact solution at time zero; the depth times gravity is the geopotential.  Any other wave type
raises `KeyError`. -/
theorem C71_case (amp : ℝ) (waveType : String) :
    ((waveType = "Rossby" ∨ waveType = "WIG" ∨ waveType = "EIG") →
      ∃ u v φ : ℝ → ℝ → ℝ → ℝ, BetaPlane.Solves 7.29212e-5 9.80616 6371220 30 u v φ ∧
        ∀ lat lon, caseMatsuno 9.80616 lat lon amp waveType =
          .value (u lon lat 0, v lon lat 0, φ lon lat 0 / 9.80616)) ∧
    (waveType ≠ "Rossby" → waveType ≠ "WIG" → waveType ≠ "EIG" →
      ∀ lat lon, caseMatsuno 9.80616 lat lon amp waveType = .keyError) := by
  obtain ⟨h1, -, h3⟩ := C71_fields earth_physical 5 1 amp waveType
  refine ⟨fun hname => ?_, fun a b c lat lon => ?_⟩
  · obtain ⟨hv, hs⟩ := h1 (by norm_num) (by norm_num) hname
    refine ⟨_, _, _, hs, fun lat lon => ?_⟩
    obtain ⟨a, ha⟩ := hv lat lon 0 .phi
    obtain ⟨b, hb⟩ := hv lat lon 0 .u
    obtain ⟨c, hc⟩ := hv lat lon 0 .v
    simp [caseMatsuno, ha, hb, hc, Result.get]
  · rw [caseMatsuno, h3 (by norm_num) (by norm_num) a b c]

/-- The hypotheses are met by the default call: Earth, `k = 5`, `n = 1`, `Rossby`. -/
example : Physical earth ∧ 1 ≤ 5 ∧ 1 ≤ 1 ∧ Dispersion earth 5 1 (omega earth 5 1 .Rossby) :=
  ⟨earth_physical, by norm_num, by norm_num,
    ((C71_frequencies earth_physical (k := 5) (n := 1) (by norm_num) (by norm_num)).2.2.2 _).2 (by simp)⟩

end Fields

end WxVerif.Props.Matsuno
