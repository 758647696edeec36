import Verif.Spec.RungeKutta
import Mathlib.Tactic.Linarith
import Mathlib.Tactic.Positivity
import Mathlib.Tactic.NormNum
import Mathlib.Analysis.SpecialFunctions.Trigonometric.Bounds
import Mathlib.Analysis.SpecificLimits.Basic

/-!
# Helper lemmas about the step size control
-/

namespace WxVerif.RungeKutta

theorem arctan_half_lt : Real.arctan (1 / 2) < 1 / 2 := by
  have h := Real.lt_tan (x := Real.arctan (1 / 2)) (by simp) (Real.arctan_lt_pi_div_two _)
  rwa [Real.tan_arctan] at h

theorem limiter_lt (u : ℝ) : limiter u 2 < 1 + Real.pi := by
  unfold limiter
  have := Real.arctan_lt_pi_div_two ((u - 1) / 2)
  linarith

theorem limiter_ge {u : ℝ} (h : 0 ≤ u) : 1 - 2 * Real.arctan (1 / 2) ≤ limiter u 2 := by
  unfold limiter
  have h1 : Real.arctan (-(1 / 2)) ≤ Real.arctan ((u - 1) / 2) :=
    Real.arctan_mono (by linarith)
  rw [Real.arctan_neg] at h1
  linarith

theorem limiter_pos {u : ℝ} (h : 0 ≤ u) : 0 < limiter u 2 := by
  have := limiter_ge h
  have := arctan_half_lt
  linarith

theorem limiter_mono : StrictMono fun u => limiter u 2 := by
  intro a b hab
  unfold limiter
  have h1 : Real.arctan ((a - 1) / 2) < Real.arctan ((b - 1) / 2) :=
    Real.arctan_strictMono (by linarith)
  simp only
  linarith

theorem limiter_one : limiter 1 2 = 1 := by simp [limiter]

theorem limiter_le_one {u : ℝ} (h : u ≤ 1) : limiter u 2 ≤ 1 := by
  have := limiter_mono.monotone h
  simpa [limiter_one] using this

theorem limiter_lt_one {u : ℝ} (h : u < 1) : limiter u 2 < 1 := by
  have := limiter_mono h
  simpa [limiter_one] using this

theorem reassess_spec {V : Type*} {p : Problem V} (g : Good p) {s : Solver V} (ht : s.t < p.tBound)
    (hM : ∀ M, p.maxStep = some M → minStep p s ≤ M) :
    (reassess p s).2.1 = minStep p s ∧ 0 < (reassess p s).1 ∧ s.t + (reassess p s).1 ≤ p.tBound ∧
    ((reassess p s).2.2 = false → s.standardSc = false) ∧
    (∀ M, p.maxStep = some M → (reassess p s).1 ≤ M) ∧
    (minStep p s ≤ (reassess p s).1 ∨ (reassess p s).1 = p.tBound - s.t) := by
  have hm : 0 < minStep p s := lt_max_of_lt_right g.b
  have hd : |p.tBound - s.t| = p.tBound - s.t := abs_of_pos (by linarith)
  -- the first adjustment
  have key : ∀ r : ℝ × Bool, minStep p s ≤ r.1 → (∀ M, p.maxStep = some M → r.1 ≤ M) →
      (r.2 = false → s.standardSc = false) →
      let R := (if p.tBound - s.t < 2 * r.1 then
        if r.1 < p.tBound - s.t then (max (0.5 * (p.tBound - s.t)) (minStep p s), minStep p s, true)
        else (p.tBound - s.t, minStep p s, r.2)
      else (r.1, minStep p s, r.2) : ℝ × ℝ × Bool)
      R.2.1 = minStep p s ∧ 0 < R.1 ∧ s.t + R.1 ≤ p.tBound ∧ (R.2.2 = false → s.standardSc = false) ∧
      (∀ M, p.maxStep = some M → R.1 ≤ M) ∧ (minStep p s ≤ R.1 ∨ R.1 = p.tBound - s.t) := by
    intro r h1 h2 h3
    dsimp only
    split_ifs with c1 c2
    · refine ⟨rfl, lt_max_of_lt_right hm, ?_, by simp, ?_, Or.inl (le_max_right _ _)⟩
      · have : max (0.5 * (p.tBound - s.t)) (minStep p s) ≤ p.tBound - s.t := by
          refine max_le ?_ (by linarith)
          linarith
        simp only
        linarith
      · intro M hM'
        refine max_le ?_ (hM M hM')
        have := h2 M hM'
        linarith
    · refine ⟨rfl, by simp only; linarith, by simp only; linarith, h3, ?_, Or.inr rfl⟩
      intro M hM'
      have := h2 M hM'
      simp only
      linarith
    · refine ⟨rfl, by simp only; linarith, by simp only; linarith, h3, h2, Or.inl h1⟩
  unfold reassess
  simp only [hd]
  rcases hmax : p.maxStep with _ | M <;> rw [hmax] at key hM
  · simp only [or_false]
    by_cases hb : s.h < max (p.hMinA * (|s.t| + s.h)) p.hMinB
    · simp only [hb, ↓reduceIte]
      exact key (max (minStep p s) s.h, true) (le_max_left _ _) (by simp) (by simp)
    · simp only [hb, ↓reduceIte]
      exact key (s.h, s.standardSc) (not_lt.mp hb) (by simp) (by simp)
  · simp only
    by_cases hb : s.h < max (p.hMinA * (|s.t| + s.h)) p.hMinB ∨ M < s.h
    · simp only [hb, ↓reduceIte]
      have := hM M rfl
      exact key (min M (max (minStep p s) s.h), true) (le_min this (le_max_left _ _))
        (by simp) (by simp)
    · simp only [hb, ↓reduceIte]
      rw [not_or] at hb
      exact key (s.h, s.standardSc) (not_lt.mp hb.1) (by simpa using hb.2) (by simp)

variable {V : Type*} [AddCommGroup V] [Module ℝ V]

omit [AddCommGroup V] [Module ℝ V] in
/-- the exponent of the error norm gives a factor between 0 and 1 for a rejected step -/
theorem rejectFactor {p : Problem V} (g : Good p) {e : ℝ} (he : ¬ e < 1) :
    0 ≤ p.control.safety * e ^ (-1 / ((p.errOrder : ℝ) + 1)) ∧
    p.control.safety * e ^ (-1 / ((p.errOrder : ℝ) + 1)) ≤ p.control.safety := by
  have h1 : 1 ≤ e := not_lt.mp he
  have h2 : e ^ (-1 / ((p.errOrder : ℝ) + 1)) ≤ 1 := by
    apply Real.rpow_le_one_of_one_le_of_nonpos h1
    apply div_nonpos_of_nonpos_of_nonneg (by norm_num) (by positivity)
  have h3 : 0 ≤ e ^ (-1 / ((p.errOrder : ℝ) + 1)) := Real.rpow_nonneg (by linarith) _
  have := g.safety0
  constructor
  · positivity
  · nlinarith

omit [AddCommGroup V] [Module ℝ V] in
theorem acceptFactor_spec {p : Problem V} (g : Good p) {sc : Bool} {e h hPrev : ℝ} {errOld : Option ℝ}
    (he : 0 ≤ e) (hh : 0 < h) (hp : 0 < hPrev) (ho : sc = false → ∃ x, errOld = some x ∧ 0 < x) :
    ∃ fs, acceptFactor p sc e errOld h hPrev = some fs ∧ 0 ≤ fs.1 ∧ (fs.2 = false → p.hMinB ≤ e) := by
  unfold acceptFactor
  split_ifs with c1 c2
  · exact ⟨_, rfl, by norm_num [bigFactor], by simp⟩
  · refine ⟨_, rfl, mul_nonneg g.safety0.le (Real.rpow_nonneg he _), fun _ => not_lt.mp c1⟩
  · obtain ⟨x, rfl, hx⟩ := ho (by simpa using c2)
    refine ⟨_, rfl, ?_, fun _ => not_lt.mp c1⟩
    have := g.safetySc
    have h1 := Real.rpow_nonneg he p.control.minbeta1
    have h2 := Real.rpow_nonneg hx.le p.control.minbeta2
    have h3 := Real.rpow_nonneg (div_nonneg hh.le hp.le) p.control.minalpha
    simp only
    positivity

theorem attempt_crash {p : Problem V} (g : Good p) {s : Solver V} {sc : Bool} {hPrev m : ℝ}
    (hp : 0 < hPrev) (ho : sc = false → ∃ x, s.errOld = some x ∧ 0 < x) :
    ∀ fuel rejected h, 0 < h → attempt p s sc hPrev m fuel rejected h ≠ .crash := by
  intro fuel
  induction fuel with
  | zero => intro r h _; simp [attempt]
  | succ n ih =>
    intro r h hh
    unfold attempt
    split_ifs with c1
    · simp
    split
    · simp
    · rename_i e hE
      have he := g.norm _ _ _ _ hE
      simp only
      split_ifs with c2 c3
      · obtain ⟨fs, hfs, _⟩ := acceptFactor_spec g he hh hp ho
        rw [hfs]; simp
      · simp
      · refine ih _ _ ?_
        exact mul_pos hh (limiter_pos (rejectFactor g c2).1)

theorem attempt_accept {p : Problem V} (g : Good p) {s : Solver V} {sc : Bool} {hPrev m : ℝ}
    (hp : 0 < hPrev) (ho : sc = false → ∃ x, s.errOld = some x ∧ 0 < x) {hU hN e : ℝ} {yN kL : V} {sc' : Bool} :
    ∀ fuel rejected h, 0 < h → attempt p s sc hPrev m fuel rejected h = .accept hU hN yN kL e sc' →
      0 < hU ∧ hU ≤ h ∧ m ≤ hU ∧
      (1 - 2 * Real.arctan (1 / 2)) * hU ≤ hN ∧ hN < (1 + Real.pi) * hU ∧
      ((rejected = true ∨ hU < h) → hN ≤ hU) ∧
      yN = advance p s hU ∧
      (fsal p → kL = p.f (s.t + hU) yN) ∧ (¬ fsal p → kL = p.f (s.t + hN) yN) ∧
      0 ≤ e ∧ e < 1 ∧ (sc' = false → p.hMinB ≤ e) ∧
      errorOf p s hU = .fin e := by
  intro fuel
  induction fuel with
  | zero => intro r h _ h2; simp [attempt] at h2
  | succ n ih =>
    intro r h hh
    unfold attempt
    split_ifs with c1
    · simp
    split
    · simp
    · rename_i e' hE
      have he := g.norm _ _ _ _ hE
      simp only
      split_ifs with c2 c3
      all_goals try (intro hbad; simp at hbad; done)
      all_goals first
        | (obtain ⟨fs, hfs, hf0, hf2⟩ := acceptFactor_spec g he hh hp ho
           rw [hfs]
           simp only [Outcome.accept.injEq]
           rintro ⟨rfl, rfl, rfl, rfl, rfl, rfl⟩
           have hfac : 0 ≤ cap r fs.1 := by
             unfold cap
             split_ifs
             · exact le_min zero_le_one hf0
             · exact hf0
           refine ⟨hh, le_rfl, not_lt.mp c1, ?_, ?_, ?_, rfl, ?_, ?_, he, c2, hf2, hE⟩
           · rw [mul_comm]; exact mul_le_mul_of_nonneg_left (limiter_ge hfac) hh.le
           · rw [mul_comm]; exact mul_lt_mul_of_pos_right (limiter_lt _) hh
           · rintro (h3 | h3)
             · rw [show cap r fs.1 = min 1 fs.1 by simp [cap, h3]]
               have := limiter_le_one (min_le_left 1 fs.1)
               nlinarith
             · exact absurd h3 (lt_irrefl _)
           · intro hf; simp [lastDerivative, hf]
           · intro hf; simp [lastDerivative, hf])
        | (intro hrec
           have hr := rejectFactor g c2
           have hl := limiter_lt_one (lt_of_le_of_lt hr.2 g.safety1)
           have hpos := mul_pos hh (limiter_pos hr.1)
           obtain ⟨a1, a2, a3, a4, a5, a6, a7⟩ := ih _ _ hpos hrec
           refine ⟨a1, ?_, a3, a4, a5, fun _ => a6 (Or.inl rfl), a7⟩
           nlinarith)

theorem attempt_terminates {p : Problem V} (g : Good p) {s : Solver V} {sc : Bool} {hPrev m : ℝ} :
    ∀ n rejected h, 0 < h → h * (limiter p.control.safety 2) ^ n < 1 / 10 ^ 12 →
      attempt p s sc hPrev m (n + 1) rejected h ≠ .more := by
  have hc1 := limiter_lt_one g.safety1
  have hc0 := limiter_pos g.safety0.le
  have shrink : ∀ {h e : ℝ}, 0 < h → ¬ e < 1 →
      0 < h * limiter (p.control.safety * e ^ (-1 / ((p.errOrder : ℝ) + 1))) 2 ∧
      h * limiter (p.control.safety * e ^ (-1 / ((p.errOrder : ℝ) + 1))) 2 ≤ h * limiter p.control.safety 2 := by
    intro h e hh he
    have hr := rejectFactor g he
    exact ⟨mul_pos hh (limiter_pos hr.1), mul_le_mul_of_nonneg_left (limiter_mono.monotone hr.2) hh.le⟩
  intro n
  induction n with
  | zero =>
    intro r h hh hs
    unfold attempt
    split_ifs with c1
    · simp
    split
    · simp
    · simp only
      split_ifs with c2 c3
      · split <;> simp
      · simp
      · exfalso
        apply c3
        have := (shrink hh c2).2
        simp only [pow_zero, mul_one] at hs
        nlinarith
  | succ n ih =>
    intro r h hh hs
    unfold attempt
    split_ifs with c1
    · simp
    split
    · simp
    · simp only
      split_ifs with c2 c3
      · split <;> simp
      · simp
      · obtain ⟨h1, h2⟩ := shrink hh c2
        refine ih _ _ h1 (lt_of_le_of_lt ?_ hs)
        calc _ ≤ h * limiter p.control.safety 2 * limiter p.control.safety 2 ^ n :=
              mul_le_mul_of_nonneg_right h2 (by positivity)
          _ = _ := by ring

theorem attempt_mono {p : Problem V} {s : Solver V} {sc : Bool} {hPrev m : ℝ} :
    ∀ n k rejected h, attempt p s sc hPrev m n rejected h ≠ .more →
      attempt p s sc hPrev m (n + k) rejected h = attempt p s sc hPrev m n rejected h := by
  intro n
  induction n with
  | zero => intro k r h h1; simp [attempt] at h1
  | succ n ih =>
    intro k r h
    rw [show n + 1 + k = (n + k) + 1 by omega]
    unfold attempt
    split_ifs with c1
    · simp
    split
    · simp
    · simp only
      split_ifs with c2 c3
      · simp
      · simp
      · exact ih _ _ _

theorem attempt_some {p : Problem V} (g : Good p) (s : Solver V) (sc : Bool) (hPrev m : ℝ) (r : Bool) {h : ℝ}
    (hh : 0 < h) : ∃ n, ∀ k, n ≤ k → attempt p s sc hPrev m k r h = attempt p s sc hPrev m n r h ∧
      attempt p s sc hPrev m k r h ≠ .more := by
  have hc1 := limiter_lt_one g.safety1
  have hc0 := limiter_pos g.safety0.le
  obtain ⟨n, hn⟩ := exists_pow_lt_of_lt_one (show (0 : ℝ) < 1 / 10 ^ 12 / h by positivity) hc1
  have hn' : h * limiter p.control.safety 2 ^ n < 1 / 10 ^ 12 := by
    rw [lt_div_iff₀ hh] at hn
    linarith [mul_comm h (limiter p.control.safety 2 ^ n)]
  have hne := attempt_terminates g (s := s) (sc := sc) (hPrev := hPrev) (m := m) n r h hh hn'
  refine ⟨n + 1, fun k hk => ?_⟩
  have : k = (n + 1) + (k - (n + 1)) := by omega
  rw [this, attempt_mono _ _ _ _ hne]
  exact ⟨rfl, hne⟩

end WxVerif.RungeKutta
