import Verif.Lemmas.RungeKutta
import Mathlib.Algebra.Order.Archimedean.Basic

/-!
# The adaptive Runge-Kutta solver: bounds on the step and on time (C27), the carried derivative (C53)
-/

namespace WxVerif.Props.RungeKutta

open WxVerif.RungeKutta

variable {V : Type*} [AddCommGroup V] [Module ℝ V]

/-- what holds between two calls of `step` -/
structure Ready (p : Problem V) (s : Solver V) : Prop where
  running : s.status = .running
  t : s.t < p.tBound
  h : 0 < s.h
  old : s.standardSc = false → ∃ x, s.errOld = some x ∧ 0 < x

/-- the relation between the solver before and after a successful call: time advances by at least the minimum
    step and at most the maximum step, does not pass the end, the solver is finished exactly at the end,
    the accepted error is below one, and the next step is between `1 - 2 atan (1/2)` and `1 + π` times this one -/
structure Accepted (p : Problem V) (s s' : Solver V) : Prop where
  advances : s.t < s'.t
  bound : s'.t ≤ p.tBound
  finished : s'.status = .finished ↔ s'.t = p.tBound
  running : s'.status = .running ↔ s'.t < p.tBound
  min : minStep p s ≤ s'.t - s.t
  max : ∀ M, p.maxStep = some M → s'.t - s.t ≤ M
  error : ∃ e, s'.errOld = some e ∧ 0 ≤ e ∧ e < 1 ∧ errorOf p s (s'.t - s.t) = .fin e
  state : s'.y = advance p s (s'.t - s.t)
  lower : (1 - 2 * Real.arctan (1 / 2)) * (s'.t - s.t) ≤ s'.h
  upper : s'.h < (1 + Real.pi) * (s'.t - s.t)
  old : s'.standardSc = false → ∃ x, s'.errOld = some x ∧ 0 < x
  deriv : (fsal p → s'.k0 = p.f s'.t s'.y) ∧ (¬ fsal p → s'.k0 = p.f (s.t + s'.h) s'.y)

/-- a failed call leaves time, state and derivative as they were -/
structure Failed (s s' : Solver V) : Prop where
  status : s'.status = .failed
  t : s'.t = s.t
  y : s'.y = s.y
  k0 : s'.k0 = s.k0
  h : s'.h = s.h

/-- **C27**, one call: for every sequence of error norms the call ends, never with an exception, and either the
    step was accepted with the bounds of `Accepted` or the solver failed and kept its state. -/
theorem C27_step {p : Problem V} (g : Good p) {s : Solver V} (r : Ready p s)
    (hM : ∀ M, p.maxStep = some M → minStep p s ≤ M) :
    ∃ s', Next p s s' ∧ (Accepted p s s' ∨ Failed s s') := by
  obtain ⟨r1, r2, r3, r4, r5, r6⟩ := reassess_spec g r.t hM
  have ho : (reassess p s).2.2 = false → ∃ x, s.errOld = some x ∧ 0 < x := fun h => r.old (r4 h)
  obtain ⟨n, hn⟩ := attempt_some g s (reassess p s).2.2 (reassess p s).1 (reassess p s).2.1 false r2
  have hc := attempt_crash g (m := (reassess p s).2.1) r2 ho n false _ r2
  have hne : s.t ≠ p.tBound := r.t.ne
  cases hA : attempt p s (reassess p s).2.2 (reassess p s).1 (reassess p s).2.1 n false (reassess p s).1 with
  | more => exact absurd hA (hn n le_rfl).2
  | crash => exact absurd hA hc
  | fail =>
    refine ⟨{ s with standardSc := (reassess p s).2.2, status := .failed }, ⟨n, fun k hk => ?_⟩,
      Or.inr ⟨rfl, rfl, rfl, rfl, rfl⟩⟩
    unfold step
    simp only [r.running, hne, (hn k hk).1, hA, ne_eq, not_true_eq_false, ↓reduceIte]
  | accept hU hN yN kL e sc' =>
    obtain ⟨a1, a2, a3, a4, a5, a6, a7, a8, a9, a10, a11, a12, a13⟩ :=
      attempt_accept g r2 ho n false _ r2 hA
    have hle : s.t + hU ≤ p.tBound := by linarith
    have hd : s.t + hU - s.t = hU := by ring
    refine ⟨{ t := s.t + hU, y := yN, k0 := kL, h := hN, errOld := some e, standardSc := sc',
              status := if s.t + hU - p.tBound ≥ 0 then .finished else .running },
            ⟨n, fun k hk => ?_⟩, Or.inl ⟨?_, hle, ?_, ?_, ?_, ?_, ?_, ?_, ?_, ?_, ?_, ?_⟩⟩
    · unfold step
      simp only [r.running, hne, (hn k hk).1, hA, ne_eq, not_true_eq_false, ↓reduceIte]
    · simp only; linarith
    · by_cases hf : s.t + hU - p.tBound ≥ 0
      · simp only [hf, ↓reduceIte, true_iff]; linarith
      · simp only [hf, ↓reduceIte, reduceCtorEq, false_iff]
        intro h; exact hf (by linarith)
    · by_cases hf : s.t + hU - p.tBound ≥ 0
      · simp only [hf, ↓reduceIte, reduceCtorEq, false_iff]; linarith
      · simp only [hf, ↓reduceIte, true_iff]; linarith
    · simp only [hd]; rw [r1] at a3; exact a3
    · intro M h; simp only [hd]; exact le_trans a2 (r5 M h)
    · exact ⟨e, rfl, a10, a11, by simp only [hd]; exact a13⟩
    · simp only [hd]; exact a7
    · simp only [hd]; exact a4
    · simp only [hd]; exact a5
    · intro h; exact ⟨e, rfl, lt_of_lt_of_le g.b (a12 h)⟩
    · exact ⟨fun h => a8 h, fun h => a9 h⟩

theorem next_unique {p : Problem V} {s a b : Solver V} (ha : Next p s a) (hb : Next p s b) : a = b := by
  obtain ⟨n, hn⟩ := ha
  obtain ⟨m, hm⟩ := hb
  have h1 := hn (max n m) (le_max_left _ _)
  have h2 := hm (max n m) (le_max_right _ _)
  rw [h1] at h2
  exact Result.ok.inj h2

theorem next_running {p : Problem V} {s a : Solver V} (ha : Next p s a) : s.status = .running := by
  obtain ⟨n, hn⟩ := ha
  have := hn n le_rfl
  unfold step at this
  by_contra h
  simp [h] at this

/-- the outcome of any history of calls starting from a new solver, with the default maximum step -/
theorem steps_inv {p : Problem V} (g : Good p) (hmax : p.maxStep = none) {t0 h0 : ℝ} {y0 : V} (ht : t0 < p.tBound)
    {s0 : Solver V} (hs : construct p t0 y0 h0 = some s0) {n : Nat} {s : Solver V} (h : Steps p n s0 s) :
    (s.status = .running → Ready p s ∧ t0 + n * p.hMinB ≤ s.t) ∧ t0 ≤ s.t ∧ s.t ≤ p.tBound ∧
      (s.status = .finished → s.t = p.tBound) := by
  have h0' : s0 = ⟨t0, y0, p.f t0 y0, h0, none, true, .running⟩ ∧ 0 < h0 := by
    unfold construct at hs
    split_ifs at hs with c1 c2
    simp only [Option.some.injEq] at hs
    exact ⟨hs.symm, not_le.mp c1⟩
  induction h with
  | zero =>
    obtain ⟨rfl, hpos⟩ := h0'
    refine ⟨fun _ => ⟨⟨rfl, ht, hpos, by simp⟩, by simp⟩, le_rfl, ht.le, by simp⟩
  | succ h1 h2 ih =>
    rename_i n s' s''
    obtain ⟨i1, i2, i3, i4⟩ := ih hs h0'
    obtain ⟨r, ib⟩ := i1 (next_running h2)
    obtain ⟨x, hx, hx'⟩ := C27_step g r (by simp [hmax])
    have hxe := next_unique h2 hx
    subst hxe
    rcases hx' with a | f
    · refine ⟨fun hr => ⟨⟨hr, a.running.mp hr, ?_, a.old⟩, ?_⟩, by linarith [a.advances], a.bound,
        fun hf => a.finished.mp hf⟩
      · have := a.lower
        have := a.advances
        have := arctan_half_lt
        have : 0 < (1 - 2 * Real.arctan (1 / 2)) * (s''.t - s'.t) := mul_pos (by linarith) (by linarith)
        linarith
      · have h3 : p.hMinB ≤ minStep p s' := le_max_right _ _
        have := a.min
        push_cast
        linarith
    · refine ⟨fun hr => ?_, by rw [f.t]; exact i2, by rw [f.t]; exact i3, fun hr => ?_⟩
      · rw [f.status] at hr; cases hr
      · rw [f.status] at hr; cases hr

/-- **C27**, whole history: after any number of calls of `step` on a new solver, whatever the error norms were,
    the time is between the initial and the final time, and a finished solver is exactly at the final time. -/
theorem C27_never_oversteps {p : Problem V} (g : Good p) (hmax : p.maxStep = none) {t0 h0 : ℝ} {y0 : V}
    (ht : t0 < p.tBound) {s0 : Solver V} (hs : construct p t0 y0 h0 = some s0) {n : Nat} {s : Solver V}
    (h : Steps p n s0 s) :
    t0 ≤ s.t ∧ s.t ≤ p.tBound ∧ (s.status = .finished → s.t = p.tBound) ∧
      (s.status = .running → s.t < p.tBound) :=
  ⟨(steps_inv g hmax ht hs h).2.1, (steps_inv g hmax ht hs h).2.2.1, (steps_inv g hmax ht hs h).2.2.2,
   fun hr => ((steps_inv g hmax ht hs h).1 hr).1.t⟩

/-- **C27**, termination: the loop `while solver.status == "running": solver.step()` ends after at most
    `(t_bound - t0) / h_min_b + 1` calls, finished or failed, and no call raises an exception. -/
theorem C27_ends {p : Problem V} (g : Good p) (hmax : p.maxStep = none) {t0 h0 : ℝ} {y0 : V}
    (ht : t0 < p.tBound) {s0 : Solver V} (hs : construct p t0 y0 h0 = some s0) :
    ∃ (n : Nat) (s : Solver V), (n : ℝ) ≤ (p.tBound - t0) / p.hMinB + 1 ∧ Steps p n s0 s ∧ s.status ≠ .running := by
  by_contra hcon
  push Not at hcon
  have hall : ∀ n : Nat, ((n : ℝ) ≤ (p.tBound - t0) / p.hMinB + 1) → ∃ s, Steps p n s0 s := by
    intro n
    induction n with
    | zero => intro _; exact ⟨s0, .zero _⟩
    | succ n ih =>
      intro hn
      have hn' : (n : ℝ) ≤ (p.tBound - t0) / p.hMinB + 1 := by push_cast at hn; linarith
      obtain ⟨s, hst⟩ := ih hn'
      have hr := hcon n s hn' hst
      obtain ⟨r, _⟩ := (steps_inv g hmax ht hs hst).1 hr
      obtain ⟨x, hx, _⟩ := C27_step g r (by simp [hmax])
      exact ⟨x, .succ hst hx⟩
  obtain ⟨N, hN1, hN2⟩ : ∃ N : Nat, (N : ℝ) ≤ (p.tBound - t0) / p.hMinB + 1 ∧ (p.tBound - t0) / p.hMinB < N := by
    have hq : 0 ≤ (p.tBound - t0) / p.hMinB := div_nonneg (by linarith) g.b.le
    exact ⟨⌊(p.tBound - t0) / p.hMinB⌋₊ + 1, by push_cast; linarith [Nat.floor_le hq],
      by push_cast; exact Nat.lt_floor_add_one _⟩
  obtain ⟨s, hst⟩ := hall N hN1
  have hr := hcon N s hN1 hst
  obtain ⟨r, hb⟩ := (steps_inv g hmax ht hs hst).1 hr
  rw [div_lt_iff₀ g.b] at hN2
  linarith [r.t]

/-- **C27**: a solver that is not running refuses to step. -/
theorem C27_not_running (p : Problem V) (fuel : Nat) (s : Solver V) (h : s.status ≠ .running) :
    step p fuel s = .notRunning := by
  simp [step, h]

/-- **C27**: the step is scaled by the limited factor: for every factor that is not negative it stays between
    `1 - 2 atan (1/2)` (which is positive) and `1 + π`, is increasing in the factor and does not change the step for factor 1. -/
theorem C27_limiter (u : ℝ) (hu : 0 ≤ u) :
    0 < 1 - 2 * Real.arctan (1 / 2) ∧ 1 - 2 * Real.arctan (1 / 2) ≤ limiter u 2 ∧ limiter u 2 < 1 + Real.pi ∧
      (∀ v, u < v → limiter u 2 < limiter v 2) ∧ limiter 1 2 = 1 :=
  ⟨by linarith [arctan_half_lt], limiter_ge hu, limiter_lt u, fun _ h => limiter_mono h, limiter_one⟩

theorem mem_of_lookup {α β : Type*} [BEq α] [LawfulBEq α] {l : List (α × β)} {k : α} {v : β}
    (h : l.lookup k = some v) : (k, v) ∈ l := by
  induction l with
  | nil => simp at h
  | cons x xs ih =>
    obtain ⟨a, b⟩ := x
    rw [List.lookup_cons] at h
    split at h
    · rename_i hb
      rw [eq_of_beq hb]
      simp only [Option.some.injEq] at h
      simp [h]
    · exact List.mem_cons_of_mem _ (ih h)

/-- **C27**: every controller that the constructor accepts has a safety factor strictly between 0 and 1, so it
    meets the assumptions; a name that is not in the table is refused and a tuple gives the default. -/
theorem C27_controllers (q : Nat) (arg : ControllerArg) :
    (∀ c, initControl q arg = some c → 0 < c.safety ∧ c.safety < 1 ∧ 0 ≤ c.safetySc) ∧
    (∀ kb1 kb2 a g, initControl q (.tuple kb1 kb2 a g) = initControl q .none) ∧
    (∀ s : String, s.toUpper ≠ "" → controllers.lookup s.toUpper = none → initControl q (.name s) = none) := by
  refine ⟨?_, ?_, ?_⟩
  · intro c hc
    unfold initControl at hc
    simp only [Option.map_eq_some_iff] at hc
    obtain ⟨⟨kb1, kb2, a, g⟩, hl, rfl⟩ := hc
    have hmem : ∃ k, (k, (kb1, kb2, a, g)) ∈ controllers := by
      generalize (if _ = "" then _ else _ : String) = key at hl
      exact ⟨key, mem_of_lookup hl⟩
    obtain ⟨k, hk⟩ := hmem
    have hg : 0 < g ∧ g < 1 := by
      simp only [controllers, List.mem_cons, Prod.mk.injEq, List.not_mem_nil, or_false] at hk
      rcases hk with h | h | h | h | h | h | h <;> obtain ⟨_, _, _, _, rfl⟩ := h <;> norm_num
    exact ⟨hg.1, hg.2, Real.rpow_nonneg hg.1.le _⟩
  · intro kb1 kb2 a g
    unfold initControl
    by_cases h1 : ("deadbeat".toUpper) = "" <;> simp [h1]
  · intro s h1 h2
    unfold initControl
    simp [h1, h2]

/-- **C27**: the constants computed by the constructor are positive for every list of nodes. -/
theorem C27_min_step_parameters (C : List ℝ) {epsneg tiny : ℝ} (he : 0 < epsneg) (ht : 0 < tiny) :
    10 * epsneg ≤ (minStepParameters C epsneg tiny).1 ∧
    (minStepParameters C epsneg tiny).1 ≤ 10000 * epsneg ∧ 0 < (minStepParameters C epsneg tiny).2 := by
  have hfold : ∀ (L : List ℝ) (c1 acc : ℝ), acc ≤ 1 → L.foldl (fun acc c2 =>
      open Classical in if |c1 - c2| ≠ 0 then min acc |c1 - c2| else acc) acc ≤ 1 := by
    intro L c1
    induction L with
    | nil => intro acc h; exact h
    | cons x xs ih =>
      intro acc h
      simp only [List.foldl_cons]
      apply ih
      split_ifs
      · exact le_trans (min_le_left _ _) h
      · exact h
  have hfold2 : ∀ (L : List ℝ) (acc : ℝ), acc ≤ 1 → L.foldl (fun acc c1 => C.foldl (fun acc c2 =>
      open Classical in if |c1 - c2| ≠ 0 then min acc |c1 - c2| else acc) acc) acc ≤ 1 := by
    intro L
    induction L with
    | nil => intro acc h; exact h
    | cons x xs ih =>
      intro acc h
      simp only [List.foldl_cons]
      exact ih _ (hfold _ _ _ h)
  have h1 := hfold2 C 1 le_rfl
  unfold minStepParameters
  simp only
  generalize (C.foldl _ (1 : ℝ)) = cd at h1 ⊢
  refine ⟨?_, ?_, Real.sqrt_pos.mpr ht⟩
  · split_ifs with c
    · rw [le_div_iff₀ (by norm_num)]; nlinarith
    · have : 0 < cd := by linarith [not_lt.mp c]
      rw [le_div_iff₀ this]; nlinarith
  · split_ifs with c
    · rw [div_le_iff₀ (by norm_num)]; nlinarith
    · have : 0 < cd := by linarith [not_lt.mp c]
      rw [div_le_iff₀ this]; nlinarith [not_lt.mp c]

/-! ## The derivative carried to the next step -/

/-- **C53**, methods whose last stage is the first of the next step: after every accepted step the carried
    derivative is the right-hand side at the new time and state. -/
theorem C53_carried_derivative_partial {p : Problem V} (g : Good p) {s s' : Solver V} (r : Ready p s)
    (hM : ∀ M, p.maxStep = some M → minStep p s ≤ M) (hn : Next p s s') (hf : s'.status ≠ .failed)
    (h : fsal p ∨ ∀ t t' y, p.f t y = p.f t' y) : s'.k0 = p.f s'.t s'.y := by
  obtain ⟨x, hx, hx'⟩ := C27_step g r hM
  have := next_unique hn hx
  subst this
  rcases hx' with a | f
  · by_cases hfs : fsal p
    · exact a.deriv.1 hfs
    · rcases h with h | h
      · exact absurd h hfs
      · rw [a.deriv.2 hfs]; exact h _ _ _
  · exact absurd f.status hf

/-- a two-stage method without the last-stage property, with the right-hand side `f t y = t`, an error norm that
    is always zero and the default controller -/
noncomputable def witness : Problem ℝ where
  nStages := 1
  A := fun _ _ => 0
  B := fun i => if i = 0 then 1 else 0
  C := fun _ => 0
  E := fun i => if i = 0 then 1 else 0
  errOrder := 1
  f := fun t _ => t
  errNorm := fun _ _ _ => .fin 0
  tBound := 100
  maxStep := none
  hMinA := 0
  hMinB := 1 / 100
  control := ⟨-1 / 2, 0, 0, 0.9, 0.9⟩

theorem witness_good : Good witness := by
  refine ⟨by norm_num [witness], by norm_num [witness], by norm_num [witness], by norm_num [witness],
    by norm_num [witness], ?_⟩
  intro y y' v e h
  simp only [witness, Err.fin.injEq] at h
  rw [← h]

theorem witness_not_fsal : ¬ fsal witness := by simp [fsal, witness]

/-- the state of the witness solver after construction -/
noncomputable def witness0 : Solver ℝ :=
  { t := 0, y := 0, k0 := 0, h := 1, errOld := none, standardSc := true, status := .running }

theorem witness_construct : construct witness 0 0 1 = some witness0 := by
  simp [construct, witness, witness0]

theorem witness_ready : Ready witness witness0 :=
  ⟨rfl, by norm_num [witness, witness0], by norm_num [witness0], by simp [witness0]⟩

/-- **C53** fails for the other methods: there is a right-hand side that depends on time and an accepted step
    after which the carried derivative is not the right-hand side at the new time and state. -/
theorem C53_carried_derivative_fails : ∃ (p : Problem ℝ) (s s' : Solver ℝ), Good p ∧ Ready p s ∧ Next p s s' ∧
    s'.status ≠ .failed ∧ s'.k0 ≠ p.f s'.t s'.y := by
  have hre : reassess witness witness0 = (1, 1 / 100, true) := by
    simp only [reassess, witness, witness0]
    norm_num
  have hat : ∀ k, attempt witness witness0 true 1 (1 / 100) (k + 1) false 1 =
      .accept 1 (limiter 4 2) (advance witness witness0 1)
        (lastDerivative witness witness0 1 (limiter 4 2)) 0 true := by
    intro k
    have he : errorOf witness witness0 1 = .fin 0 := by simp [errorOf, witness]
    have hf : acceptFactor witness true 0 witness0.errOld 1 1 = some (4, true) := by
      simp [acceptFactor, witness, bigFactor]
    unfold attempt
    rw [he]
    simp only [hf, cap]
    norm_num
  have hst : ∀ k, step witness (k + 1) witness0 = .ok
      { t := 1, y := advance witness witness0 1, k0 := limiter 4 2, h := limiter 4 2, errOld := some 0,
        standardSc := true, status := .running } := by
    intro k
    unfold step
    simp only [hre, hat]
    have h1 : ¬ witness0.t = witness.tBound := by norm_num [witness0, witness]
    have h2 : ¬ (witness0.t + 1 - witness.tBound ≥ 0) := by norm_num [witness0, witness]
    have h3 : lastDerivative witness witness0 1 (limiter 4 2) = limiter 4 2 := by
      simp [lastDerivative, witness_not_fsal]
      simp [witness, witness0]
    simp only [h1, h2, h3, ↓reduceIte]
    norm_num [witness0]
  have h : limiter 1 2 < limiter 4 2 := limiter_mono (by norm_num)
  rw [limiter_one] at h
  refine ⟨witness, witness0, ⟨1, advance witness witness0 1, limiter 4 2, limiter 4 2, some 0, true, .running⟩,
    witness_good, witness_ready,
    ⟨1, fun k hk => ?_⟩, by simp, ?_⟩
  · rw [show k = (k - 1) + 1 by omega]; exact hst _
  · simp only [witness]
    exact h.ne'

/-- `C27_step` and `C27_ends` apply to the solver `witness` -/
example : (∃ s', Next witness witness0 s' ∧ (Accepted witness witness0 s' ∨ Failed witness0 s')) ∧
    ∃ (n : Nat) (s : Solver ℝ), (n : ℝ) ≤ 10001 ∧ Steps witness n witness0 s ∧ s.status ≠ .running := by
  refine ⟨C27_step witness_good witness_ready (by simp [witness]), ?_⟩
  obtain ⟨n, s, h, hs⟩ := C27_ends witness_good rfl (t0 := 0) (y0 := 0) (h0 := 1) (by norm_num [witness]) witness_construct
  refine ⟨n, s, h.trans (le_of_eq ?_), hs⟩
  norm_num [witness]

/-- … and with a right-hand side that does not depend on time, so that the carried derivative is right -/
example : Good { witness with f := fun _ y => -y } ∧ ∀ t t' y, ({ witness with f := fun _ y => -y } : Problem ℝ).f t y = ({ witness with f := fun _ y => -y } : Problem ℝ).f t' y :=
  ⟨⟨witness_good.1, witness_good.2, witness_good.3, witness_good.4, witness_good.5, witness_good.6⟩, fun _ _ _ => rfl⟩

end WxVerif.Props.RungeKutta
