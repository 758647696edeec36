import Verif.Lemmas.SrerkStep
import Verif.Props.SrerkNodes
import Verif.Props.AccuracyMore

/-!
# C101: the runs of the stiffness-resilient exponential Runge-Kutta integrators converge with the order in their name
-/

namespace WxVerif.Props.Convergence

open Set SpecConvergence SpecSrerkConvergence SrerkConvergence
open WxVerif.Srerk
open WxVerif.Props.Srerk (DefaultNodes C56_default_nodes C56_stage_sizes)

universe u

variable {V : Type u} [NormedAddCommGroup V] [NormedSpace ℝ V]

theorem lastNodes_eq : ∀ (rest : List (List ℝ)) (c0 : List ℝ), (c0 :: rest).getLast? = some (lastNodes c0 rest)
  | [], c0 => rfl
  | nodes :: rest, c0 => by
    rw [List.getLast?_cons_cons]
    exact lastNodes_eq rest nodes

theorem lastOrder_eq (o : Nat) : ∀ (n a : Nat) (rest : List (List ℝ)) (c0 : List ℝ), (c0 :: rest).map List.length = List.range' a n 2 ++ [o] ++ [1] → o ≤ a + 2 * n →
    lastOrder a c0 rest = o + 2 := by
  intro n
  induction n with
  | zero =>
    intro a rest c0 h ho
    simp only [List.range'_zero, List.nil_append, List.map_cons, List.cons_append, List.cons.injEq] at h
    obtain ⟨h1, h2⟩ := h
    match rest, h2 with
    | [], h2 => simp at h2
    | [l], _ =>
      simp only [lastOrder, h1]
      omega
    | _ :: _ :: _, h2 => simp at h2
  | succ n ih =>
    intro a rest c0 h ho
    rw [List.range'_succ, List.map_cons, List.cons_append, List.cons_append, List.cons.injEq] at h
    obtain ⟨h1, h2⟩ := h
    match rest, h2 with
    | [], h2 => simp at h2
    | nodes :: rest, h2 =>
      rw [lastOrder, h1, min_self]
      exact ih (a + 2) rest nodes h2 (by omega)

/-- **C101 (stiffness-resilient exponential Runge–Kutta schemes).**  For every order of at least three, with stages of the sizes that the code uses and distinct nodes in
`(0, 1]`, no step of a run fails, and the runs converge with that order, for constant and for variable steps, up to the tolerance of the products with the Jacobian and of the
exponential solver. -/
theorem C101_srerk [CompleteSpace V] {order : Nat} {sizes : List Nat} (hsz : stageSizes order = some sizes) {c : List (List ℝ)} (hc : Nodes sizes c)
    {f : V → V} {y : ℝ → V} {T : ℝ} (hs : SmoothSolution f y T order) :
    ∃ C h0 ρ : ℝ, 0 < h0 ∧ 0 < ρ ∧ ∀ h tol, 0 < h → h ≤ h0 → 0 ≤ tol → tol ≤ h0 → ∀ ext, Accurate f y T ρ tol ext →
      ∀ (dt : Nat → ℝ) (Q : Nat → Option V), (∀ n, 0 < dt n ∧ dt n ≤ h) → Q 0 = some (y 0) → (∀ n, Q (n + 1) = (Q n).bind fun q => step c ext q (dt n)) →
        ∀ n, time dt n ≤ T → ∃ q, Q n = some q ∧ ‖q - y (time dt n)‖ ≤ C * (h ^ order + tol) := by
  obtain ⟨o3, init, hinit, hmem⟩ := C56_stage_sizes order sizes hsz
  by_cases hT : 0 < T
  swap
  · refine ⟨0, 1, 1, one_pos, one_pos, fun h tol _ _ _ _ ext _ dt Q hdt hQ0 _ n hn => ?_⟩
    have : n = 0 := by
      by_contra hne
      have : 0 < time dt n := Finset.sum_pos (fun i _ => (hdt i).1) ⟨0, Finset.mem_range.2 (by omega)⟩
      linarith
    subst this
    exact ⟨y 0, hQ0, by simp [time]⟩
  match c, hc with
  | [], hc => exact absurd hc.last (by simp)
  | c0 :: rest, hc =>
    have hl : ∀ l ∈ c0 :: rest, l.Nodup ∧ (∀ x ∈ l, 0 < x ∧ x ≤ 1) ∧ l.length + 2 ≤ order := by
      intro l hl
      refine ⟨hc.distinct l hl, hc.inside l hl, ?_⟩
      have : l.length ∈ sizes := by rw [← hc.sizes]; exact List.mem_map_of_mem hl
      rw [hinit] at this
      simp only [List.mem_append, List.mem_cons, List.not_mem_nil, or_false] at this
      rcases this with h | h | h
      · have := (hmem _).1 h; omega
      · omega
      · omega
    have hlast : lastNodes c0 rest = [1] := by
      have := hc.last
      rw [lastNodes_eq] at this
      exact Option.some.inj this
    have hord : lastOrder 2 c0 rest = order := by
      have e := hc.sizes
      rw [stageSizes, if_neg (by omega)] at hsz
      rw [← Option.some.inj hsz] at e
      rw [lastOrder_eq (order - 2) ((order - 2 - 2 + 1) / 2) 2 rest c0 e (by omega)]
      omega
    obtain ⟨C, h0, ρ, C0, h00, ρ0, H⟩ := whole_step hT (by omega) hs c0 rest hl hlast
    rw [hord] at H
    set X := T * C * Real.exp (C * T) with hX
    have X0 : 0 ≤ X := by positivity
    refine ⟨X, min h0 (min 1 (h0 / (2 * (X + 1)))), ρ, by positivity, ρ0, fun h tol hp hh t0 t1 ext hx dt Q hdt hQ0 hQ => ?_⟩
    have l1 : h ≤ h0 := hh.trans (min_le_left _ _)
    have l2 : tol ≤ h0 := t1.trans (min_le_left _ _)
    have l3 : h ≤ 1 := hh.trans ((min_le_right _ _).trans (min_le_left _ _))
    have hpow : h ^ order ≤ h := by
      calc h ^ order ≤ h ^ 1 := pow_le_pow_of_le_one hp.le l3 (by omega)
        _ = h := pow_one h
    have E0 : 0 ≤ h ^ order + tol := by positivity
    have Esmall : X * (h ^ order + tol) ≤ h0 := by
      have a : h ^ order + tol ≤ 2 * (h0 / (2 * (X + 1))) := by
        have := hh.trans ((min_le_right _ _).trans (min_le_right _ _))
        have := t1.trans ((min_le_right _ _).trans (min_le_right _ _))
        linarith
      have b : 2 * (h0 / (2 * (X + 1))) = h0 / (X + 1) := by field_simp
      calc X * (h ^ order + tol) ≤ X * (h0 / (X + 1)) := mul_le_mul_of_nonneg_left (a.trans_eq b) X0
        _ ≤ h0 := by
          rw [mul_div_assoc', div_le_iff₀ (by positivity)]
          nlinarith
    -- the run, continued by the state itself if a step failed
    have next : ∀ (t h' : ℝ) (u : V), 0 ≤ t → 0 < h' → h' ≤ h → t + h' ≤ T → ‖u - y t‖ ≤ h0 → ∃ q, step (c0 :: rest) ext u h' = some q ∧
        ‖q - y (t + h')‖ ≤ ‖u - y t‖ + h' * (C * (‖u - y t‖ + (h ^ order + tol))) := by
      intro t h' u a1 a2 a3 a4 a5
      obtain ⟨q, hq, hb⟩ := H tol t0 l2 ext hx t h' a2 (a3.trans l1) a1 a4 u a5
      refine ⟨q, hq, hb.trans (add_le_add le_rfl (mul_le_mul_of_nonneg_left (mul_le_mul_of_nonneg_left ?_ C0) a2.le))⟩
      have := pow_le_pow_left₀ a2.le a3 order
      linarith
    have eX : T * (C * (h ^ order + tol)) * Real.exp (C * T) = X * (h ^ order + tol) := by rw [hX]; ring
    have runs := WxVerif.BSeries.runs_of_step (fun u h' => (step (c0 :: rest) ext u h').getD u) y T h C (h ^ order + tol) h0 C0 E0 (by rw [eX]; exact Esmall)
      (fun t h' u a1 a2 a3 a4 a5 => by
        obtain ⟨q, hq, hb⟩ := next t h' u a1 a2 a3 a4 a5
        rw [hq]
        exact hb)
    rw [eX] at runs
    let q : Nat → V := fun n => Nat.rec (y 0) (fun n v => (step (c0 :: rest) ext v (dt n)).getD v) n
    have bound := runs dt q hdt rfl (fun _ => rfl)
    intro n
    induction n with
    | zero => intro hn; exact ⟨y 0, hQ0, by have := bound 0 hn; exact this⟩
    | succ n ih =>
      have all : ∀ n, time dt n ≤ T → Q n = some (q n) := by
        intro n
        induction n with
        | zero => intro _; exact hQ0
        | succ n ih' =>
          intro hn
          have ts : time dt (n + 1) = time dt n + dt n := Finset.sum_range_succ _ _
          have tn0 : 0 ≤ time dt n := Finset.sum_nonneg fun i _ => (hdt i).1.le
          have hn' : time dt n ≤ T := by have := (hdt n).1; linarith
          obtain ⟨w, hw, -⟩ := next (time dt n) (dt n) (q n) tn0 (hdt n).1 (hdt n).2 (by linarith) ((bound n hn').trans Esmall)
          rw [hQ, ih' hn', Option.bind_some, hw]
          show some w = some ((step (c0 :: rest) ext (q n) (dt n)).getD (q n))
          rw [hw]
          rfl
      exact fun hn => ⟨q (n + 1), all (n + 1) hn, bound (n + 1) hn⟩

/-- **C101** In particular with the default nodes of every order of at least three. -/
theorem C101_default [CompleteSpace V] {order : Nat} (h3 : 3 ≤ order) {c : List (List ℝ)} (hc : DefaultNodes order c)
    {f : V → V} {y : ℝ → V} {T : ℝ} (hs : SmoothSolution f y T order) :
    ∃ C h0 ρ : ℝ, 0 < h0 ∧ 0 < ρ ∧ ∀ h tol, 0 < h → h ≤ h0 → 0 ≤ tol → tol ≤ h0 → ∀ ext, Accurate f y T ρ tol ext →
      ∀ (dt : Nat → ℝ) (Q : Nat → Option V), (∀ n, 0 < dt n ∧ dt n ≤ h) → Q 0 = some (y 0) → (∀ n, Q (n + 1) = (Q n).bind fun q => step c ext q (dt n)) →
        ∀ n, time dt n ≤ T → ∃ q, Q n = some q ∧ ‖q - y (time dt n)‖ ≤ C * (h ^ order + tol) :=
  C101_srerk hc.sizes ((C56_default_nodes order h3).2 c hc _ hc.sizes) hs

/-- the same for the run of a program that goes on from the last state if a step fails -/
theorem srerk_within [CompleteSpace V] {order : Nat} (h3 : 3 ≤ order) {c : List (List ℝ)} (hc : DefaultNodes order c)
    {f : V → V} {y : ℝ → V} {T : ℝ} (hs : SmoothSolution f y T order) :
    ∃ C h0 ρ : ℝ, 0 < h0 ∧ 0 < ρ ∧ ∀ h tol, 0 < h → h ≤ h0 → 0 ≤ tol → tol ≤ h0 → ∀ ext, Accurate f y T ρ tol ext →
      RunsWithin (fun q dt => (step c ext q dt).getD q) y T h (C * (h ^ order + tol)) := by
  obtain ⟨C, h0, ρ, h00, ρ0, H⟩ := C101_default h3 hc hs
  refine ⟨C, h0, ρ, h00, ρ0, fun h tol a1 a2 a3 a4 ext hx dt Q hdt hQ0 hQ => ?_⟩
  let R : Nat → Option V := fun n => Nat.rec (some (y 0)) (fun n r => r.bind fun q => step c ext q (dt n)) n
  have R1 : ∀ n, R (n + 1) = (R n).bind fun q => step c ext q (dt n) := fun _ => rfl
  have B := H h tol a1 a2 a3 a4 ext hx dt R hdt rfl R1
  have same : ∀ n, time dt n ≤ T → R n = some (Q n) := by
    intro n
    induction n with
    | zero => intro _; rw [hQ0]; rfl
    | succ n ih =>
      intro hn
      have ts : time dt (n + 1) = time dt n + dt n := Finset.sum_range_succ _ _
      have e := ih (by have := (hdt n).1; linarith)
      obtain ⟨q, hq, -⟩ := B (n + 1) hn
      rw [hq, hQ]
      rw [R1, e, Option.bind_some] at hq
      show some q = some ((step c ext (Q n) (dt n)).getD (Q n))
      rw [hq]
      rfl
  intro n hn
  obtain ⟨q, hq, hb⟩ := B n hn
  rw [same n hn] at hq
  rwa [Option.some.inj hq]

/-- there are accurate externals: the exact Jacobian and the exact sums, for `y' = y²` -/
example (y : ℝ → ℝ) (T ρ : ℝ) : Accurate (fun v : ℝ => v * v) y T ρ 0 ⟨fun v => v * v, fun Q v => fderiv ℝ (fun v : ℝ => v * v) Q v,
    fun nodes Q dt vec => nodes.map fun τ => phiAt τ (dt • fderiv ℝ (fun v : ℝ => v * v) Q) vec⟩ := by
  refine ⟨rfl, fun Q _ v => by simp, fun nodes Q dt vec => by simp, fun Q _ dt _ _ nodes _ vec i hi => ?_⟩
  rw [List.getD_eq_getElem _ _ (by simpa using hi), List.getD_eq_getElem _ _ hi]
  simp

example : SmoothSolution (fun v : ℝ => v * v) (fun t => 1 / (2 - t)) 1 6 ∧ stageSizes 6 = some [2, 4, 1] ∧
    Nodes [2, 4, 1] [[1 / 3, 1], [1 / 5, 2 / 5, 3 / 5, 4 / 5], [1]] := by
  refine ⟨square_solution 6, rfl, ⟨rfl, ?_, ?_, rfl⟩⟩
  · intro l hl
    simp only [List.mem_cons, List.not_mem_nil, or_false] at hl
    rcases hl with rfl | rfl | rfl <;> norm_num
  · intro l hl τ hτ
    simp only [List.mem_cons, List.not_mem_nil, or_false] at hl
    rcases hl with rfl | rfl | rfl <;> simp only [List.mem_cons, List.not_mem_nil, or_false] at hτ
    · rcases hτ with rfl | rfl <;> norm_num
    · rcases hτ with rfl | rfl | rfl | rfl <;> norm_num
    · subst hτ; norm_num

end WxVerif.Props.Convergence

namespace WxVerif.Props.Accuracy

open Set WxVerif.Sim Schedule SpecAccuracy SpecConvergence SpecSrerkConvergence
open WxVerif.Props.Srerk (DefaultNodes)

universe u

variable {V : Type u} [NormedAddCommGroup V] [NormedSpace ℝ V]

/-- **C101** Runs with the stiffness-resilient exponential Runge–Kutta scheme of every order of at least three are accurate to that order, up to the tolerance of
the products with the Jacobian and of the exponential solver. -/
theorem C101_simulation [CompleteSpace V] {P order : Nat} (h3 : 3 ≤ order) {c : List (List ℝ)} (hc : DefaultNodes order c) {f : (Fin P → V) → Fin P → V} {y : ℝ → Fin P → V}
    {tEnd : ℝ} (hT : 0 ≤ tEnd) (hs : SmoothSolution f y tEnd order) :
    ∃ C dt0 ρ : ℝ, 0 < dt0 ∧ 0 < ρ ∧ ∀ dt tol, 0 < dt → dt ≤ dt0 → 0 ≤ tol → tol ≤ dt0 → ∀ ext, Accurate f y tEnd ρ tol ext →
      ∀ (I : Type) (env : Env ℝ I V) (i0 : I) (initialQ : Nat → V) (freqs : Freqs), Undisturbed env P →
        OneStep env P (fun q dt => (WxVerif.Srerk.step c ext q dt).getD q) → whole P initialQ = y 0 →
        RunWithin env P i0 y tEnd dt initialQ freqs (C * (dt ^ order + tol)) := by
  obtain ⟨C, h0, ρ, h00, ρ0, H⟩ := Convergence.srerk_within h3 hc hs
  exact ⟨C, h0, ρ, h00, ρ0, fun dt tol a1 a2 a3 a4 ext hx I env i0 initialQ freqs hu ho hi =>
    one_step hu ho a1 hT i0 hi freqs (H dt tol a1 a2 a3 a4 ext hx)⟩

end WxVerif.Props.Accuracy
