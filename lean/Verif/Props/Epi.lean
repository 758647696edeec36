import Verif.Lemmas.Epi
import Mathlib.LinearAlgebra.Lagrange
import Mathlib.RingTheory.Polynomial.Vieta
import Mathlib.Tactic.IntervalCases
import Mathlib.Algebra.BigOperators.Field

/-!
# Properties C24 – C26: exponential propagation integrators
-/

namespace WxVerif.Props.Epi

open WxVerif.Epi WxVerif.Multistep WxVerif.Lemmas.Epi

variable {K : Type*} {V : Type*}

/-! ## C24 -/

section C24
variable [Field K] [LinearOrder K] [AddCommGroup V] [Module K V]

/-- nonlinear remainder of the right-hand side at `p` relative to the linearization at `Q` -/
def remainder (ext : Ext K V) (Q p : V) : V := (ext.rhs p - ext.rhs Q) - ext.jac Q (p - Q)

/-- the vectors `v_0 … v_maxPhi` of a multistep EPI step at the state `Q`
    with the past states `p 0` (newest), `p 1`, …: `v_1` is the right-hand side and
    `v_k = Σ_i A[k - first][i] • remainder (p i)` -/
def multistepVectors (cfg : Cfg K) (ext : Ext K V) (Q : V) (p : Nat → V) : List V :=
  (List.range (cfg.maxPhi + 1)).map fun row => (if row = 1 then ext.rhs Q else 0) +
    ∑ i ∈ Finset.range cfg.nPrev,
      (if cfg.first ≤ row then (cfg.A.getD (row - cfg.first) []).getD i 0 else 0) • remainder ext Q (p i)

/-- a configuration whose table fits its phi functions -/
structure WellFormed (cfg : Cfg K) : Prop where
  rows : ∀ row ∈ cfg.A, row.length = cfg.nPrev
  fits : 0 < cfg.nPrev → cfg.first + cfg.A.length ≤ cfg.maxPhi + 1
  sub : 0 < cfg.substeps

theorem map_range_cons {β : Type*} (q : Nat → β) (n m : Nat) :
    q n :: (List.range m).map (fun i => q (n - 1 - i)) = (List.range (m + 1)).map (fun i => q (n + 1 - 1 - i)) := by
  rw [List.range_succ_eq_map, List.map_cons, List.map_map]
  congr 1
  apply List.map_congr_left
  intro i _
  simp only [Function.comp]
  congr 1
  omega

theorem dropLast_map_range {β : Type*} (q : Nat → β) (m : Nat) :
    ((List.range (m + 1)).map q).dropLast = (List.range m).map q := by
  rw [List.range_succ, List.map_append]
  simp

/-- one call, knowing the history -/
theorem step_spec (cfg : Cfg K) (wf : WellFormed cfg) (ext : Ext K V) (dts : Nat → K) (q : Nat → V) (n : Nat)
    (st : St K V)
    (h1 : st.prevQ = (List.range (min (since dts n) cfg.nPrev)).map (fun i => q (n - 1 - i)))
    (h2 : st.prevRhs = st.prevQ.map ext.rhs)
    (h3 : st.dt = if n = 0 then 0 else dts (n - 1)) :
    ∃ st' Q', step cfg ext st (q n) (dts n) = some (st', Q') ∧
      st'.prevQ = (List.range (min (since dts (n + 1)) cfg.nPrev)).map (fun i => q (n + 1 - 1 - i)) ∧
      st'.prevRhs = st'.prevQ.map ext.rhs ∧ st'.dt = dts n ∧
      (Uninterrupted dts n cfg.nPrev →
        Q' = q n + dts n • ext.phi (q n) (dts n) (multistepVectors cfg ext (q n) (fun i => q (n - 1 - i)))) ∧
      (¬ Uninterrupted dts n cfg.nPrev →
        Q' = (fun x => ext.initStep x (dts n / (cfg.substeps : K)))^[cfg.substeps] (q n)) := by
  classical
  have hsub : ∀ (d : K) m (x : V), substepLoop ext.initStep d m x = (fun y => ext.initStep y d)^[m] x := by
    intro d m
    induction m with
    | zero => intro x; rfl
    | succ m ih => intro x; rw [substepLoop, ih, Function.iterate_succ_apply]
  have hs := since_succ dts n
  -- the history after the check for a change of step
  obtain ⟨st1, e1, hq1, hr1, hd1⟩ : ∃ st1 : St K V, checkDt st (dts n) = st1 ∧
      st1.prevQ = (List.range (min (usable dts n) cfg.nPrev)).map (fun i => q (n - 1 - i)) ∧
      st1.prevRhs = st1.prevQ.map ext.rhs ∧ st1.dt = dts n := by
    refine ⟨_, rfl, ?_⟩
    unfold checkDt
    by_cases hn : n = 0
    · subst hn
      have hd0 : st.dt = 0 := by simpa using h3
      have hu : usable dts 0 = 0 := by
        have := usable_le dts 0
        omega
      have h0 : since dts 0 = 0 := rfl
      simp only [hd0, ne_eq, not_true_eq_false, false_and, ↓reduceIte, hu]
      rw [h0] at h1
      exact ⟨h1, h2, trivial⟩
    · have hd0 : st.dt = dts (n - 1) := by rw [h3, if_neg hn]
      by_cases hr : Restart dts n
      · have hc : st.dt ≠ 0 ∧ |st.dt - dts n| > 1 / 10 ^ 10 := by
          rcases hr with h | h
          · exact absurd h hn
          · rw [hd0]; exact h
        have hu : usable dts n = 0 := by unfold usable; simp [hr]
        rw [if_pos hc, hu]
        simp
      · have hc : ¬ (st.dt ≠ 0 ∧ |st.dt - dts n| > 1 / 10 ^ 10) := by
          intro h
          exact hr (Or.inr (by rw [← hd0]; exact h))
        have hu : usable dts n = since dts n := by unfold usable; simp [hr]
        rw [if_neg hc, hu]
        exact ⟨h1, h2, rfl⟩
  have hstep : step cfg ext st (q n) (dts n) =
      (if st1.prevQ.length < cfg.nPrev then
        (if cfg.substeps = 0 then none
        else some ({ st1 with prevQ := q n :: st1.prevQ, prevRhs := ext.rhs (q n) :: st1.prevRhs },
          substepLoop ext.initStep (dts n / (cfg.substeps : K)) cfg.substeps (q n)))
      else
        match fill cfg ext st1 (q n) (ext.rhs (q n)) 0 cfg.nPrev (vec0 cfg (ext.rhs (q n))) with
        | none => none
        | some vec =>
          some ((if 0 < cfg.nPrev then
              { st1 with prevQ := q n :: st1.prevQ.dropLast, prevRhs := ext.rhs (q n) :: st1.prevRhs.dropLast }
            else st1), q n + dts n • ext.phi (q n) (dts n) vec)) := by
    unfold step
    rw [e1]
    rfl
  have hlen : st1.prevQ.length = min (usable dts n) cfg.nPrev := by rw [hq1]; simp
  rw [hstep]
  by_cases hlt : usable dts n < cfg.nPrev
  · -- start-up
    have hl : st1.prevQ.length < cfg.nPrev := by omega
    have hsb : cfg.substeps ≠ 0 := by have := wf.sub; omega
    have hnu : ¬ Uninterrupted dts n cfg.nPrev := fun h => by
      have := (le_usable_iff dts n cfg.nPrev).2 h
      omega
    rw [if_pos hl, if_neg hsb]
    refine ⟨_, _, rfl, ?_, ?_, hd1, fun h => absurd h hnu, fun _ => hsub _ _ _⟩
    · show q n :: st1.prevQ = _
      rw [hq1, hs, map_range_cons]
      have : min (usable dts n) cfg.nPrev + 1 = min (usable dts n + 1) cfg.nPrev := by omega
      rw [this]
    · show ext.rhs (q n) :: st1.prevRhs = (q n :: st1.prevQ).map ext.rhs
      rw [hr1, List.map_cons]
  · have hl : ¬ st1.prevQ.length < cfg.nPrev := by omega
    have hmin : min (usable dts n) cfg.nPrev = cfg.nPrev := by omega
    have hun : Uninterrupted dts n cfg.nPrev := (le_usable_iff dts n cfg.nPrev).1 (by omega)
    rw [hmin] at hq1
    rw [if_neg hl]
    have hf : fill cfg ext st1 (q n) (ext.rhs (q n)) 0 cfg.nPrev (vec0 cfg (ext.rhs (q n))) =
        some (multistepVectors cfg ext (q n) (fun i => q (n - 1 - i))) := by
      rw [show vec0 cfg (ext.rhs (q n)) = _ from vec0_range cfg _]
      rw [fill_spec cfg ext st1 (q n) (ext.rhs (q n)) (fun i => q (n - 1 - i)) (cfg.maxPhi + 1)
        wf.rows wf.fits hq1 (by rw [hr1, hq1, List.map_map]; rfl) cfg.nPrev 0 _ (by omega)]
      unfold multistepVectors remainder
      simp only [Nat.zero_add]
    rw [hf]
    refine ⟨_, _, rfl, ?_, ?_, ?_, fun _ => rfl, fun h => absurd hun h⟩
    · by_cases hp : 0 < cfg.nPrev
      · rw [if_pos hp]
        show q n :: st1.prevQ.dropLast = _
        obtain ⟨m, hm⟩ : ∃ m, cfg.nPrev = m + 1 := ⟨cfg.nPrev - 1, by omega⟩
        rw [hq1, hs, hm, dropLast_map_range, map_range_cons]
        have : min (usable dts n + 1) (m + 1) = m + 1 := by omega
        rw [this]
      · have h0 : cfg.nPrev = 0 := by omega
        rw [if_neg hp, hq1, h0]
        simp
    · by_cases hp : 0 < cfg.nPrev
      · rw [if_pos hp]
        show ext.rhs (q n) :: st1.prevRhs.dropLast = (q n :: st1.prevQ.dropLast).map ext.rhs
        rw [hr1, List.map_cons, List.map_dropLast]
      · rw [if_neg hp]; exact hr1
    · by_cases hp : 0 < cfg.nPrev
      · rw [if_pos hp]; exact hd1
      · rw [if_neg hp]; exact hd1

/-- the state after `n` calls -/
def stateAfter (cfg : Cfg K) (ext : Ext K V) (dts : Nat → K) (Q0 : V) (n : Nat) : V :=
  ((run cfg ext dts Q0 n).map Prod.snd).getD Q0

theorem run_inv (cfg : Cfg K) (wf : WellFormed cfg) (ext : Ext K V) (dts : Nat → K) (Q0 : V) (n : Nat) :
    ∃ st, run cfg ext dts Q0 n = some (st, stateAfter cfg ext dts Q0 n) ∧
      st.prevQ = (List.range (min (since dts n) cfg.nPrev)).map
        (fun i => stateAfter cfg ext dts Q0 (n - 1 - i)) ∧
      st.prevRhs = st.prevQ.map ext.rhs ∧ st.dt = (if n = 0 then 0 else dts (n - 1)) := by
  induction n with
  | zero => exact ⟨init, rfl, by simp [since, init], rfl, rfl⟩
  | succ n ih =>
    obtain ⟨st, h0, h1, h2, h3⟩ := ih
    obtain ⟨st', Q', e, a1, a2, a3, _, _⟩ := step_spec cfg wf ext dts (stateAfter cfg ext dts Q0) n st h1 h2 h3
    have hrun : run cfg ext dts Q0 (n + 1) = some (st', Q') := by rw [run, h0]; exact e
    have hQ : stateAfter cfg ext dts Q0 (n + 1) = Q' := by unfold stateAfter; rw [hrun]; rfl
    exact ⟨st', by rw [hQ]; exact hrun, a1, a2, by simpa using a3⟩

/-- **C24.** Whatever the sequence of step sizes, every call succeeds, and the sequence of states `q` obeys:
    a call that was preceded by at least `nPrev` calls since the last change of step size is a multistep step
    built from exactly the `nPrev` states before it (newest first) and the right-hand side at these states;
    every other call is a start-up step of `substeps` calls to the start-up method with an equal share of dt. -/
theorem C24_multistep (cfg : Cfg K) (wf : WellFormed cfg) (ext : Ext K V) (dts : Nat → K) (Q0 : V) :
    ∃ q : Nat → V, q 0 = Q0 ∧ (∀ n, ∃ st, run cfg ext dts Q0 n = some (st, q n)) ∧ ∀ n,
      (Uninterrupted dts n cfg.nPrev →
        q (n + 1) = q n + dts n • ext.phi (q n) (dts n)
          (multistepVectors cfg ext (q n) (fun i => q (n - 1 - i)))) ∧
      (¬ Uninterrupted dts n cfg.nPrev →
        q (n + 1) = (fun x => ext.initStep x (dts n / (cfg.substeps : K)))^[cfg.substeps] (q n)) := by
  refine ⟨stateAfter cfg ext dts Q0, rfl, fun n => ?_, fun n => ?_⟩
  · obtain ⟨st, h, _⟩ := run_inv cfg wf ext dts Q0 n
    exact ⟨st, h⟩
  · obtain ⟨st, h0, h1, h2, h3⟩ := run_inv cfg wf ext dts Q0 n
    obtain ⟨st', Q', e, _, _, _, b1, b2⟩ := step_spec cfg wf ext dts (stateAfter cfg ext dts Q0) n st h1 h2 h3
    have hrun : run cfg ext dts Q0 (n + 1) = some (st', Q') := by rw [run, h0]; exact e
    have hQ : stateAfter cfg ext dts Q0 (n + 1) = Q' := by unfold stateAfter; rw [hrun]; rfl
    rw [hQ]
    exact ⟨b1, b2⟩

/-- **C24 (history).** After any number of calls the integrator holds at most `nPrev` past states; they are the
    most recent ones, newest first, each with its own right-hand side, and all of them belong to calls
    after the last change of step size; no usable state is forgotten. -/
theorem C24_history (cfg : Cfg K) (wf : WellFormed cfg) (ext : Ext K V) (dts : Nat → K) (Q0 : V)
    (q : Nat → V) (hq : ∀ n, ∃ st, run cfg ext dts Q0 n = some (st, q n)) (n : Nat) (st : St K V)
    (h : run cfg ext dts Q0 (n + 1) = some (st, q (n + 1))) :
    ∃ m, m ≤ cfg.nPrev ∧
      st.prevQ = (List.range m).map (fun i => q (n - i)) ∧
      st.prevRhs = (List.range m).map (fun i => ext.rhs (q (n - i))) ∧
      (0 < m → Uninterrupted dts n (m - 1)) ∧
      (m < cfg.nPrev → ¬ Uninterrupted dts n m) := by
  have hqs : ∀ k, q k = stateAfter cfg ext dts Q0 k := by
    intro k
    obtain ⟨s, hs⟩ := hq k
    unfold stateAfter; rw [hs]; rfl
  obtain ⟨st', h0, h1, h2, h3⟩ := run_inv cfg wf ext dts Q0 (n + 1)
  rw [h0] at h
  have : st' = st := by
    have := Option.some.inj h
    exact congrArg Prod.fst this
  subst this
  have hfun : (fun i => stateAfter cfg ext dts Q0 (n + 1 - 1 - i)) = fun i => q (n - i) := by
    funext i; rw [hqs]; rfl
  rw [hfun] at h1
  refine ⟨min (since dts (n + 1)) cfg.nPrev, by omega, h1, by rw [h2, h1, List.map_map]; rfl, ?_, ?_⟩
  · intro hm
    rw [since_succ] at hm ⊢
    have : min (usable dts n + 1) cfg.nPrev - 1 ≤ usable dts n := by omega
    exact (le_usable_iff dts n _).1 this
  · intro hm hun
    have := (le_usable_iff dts n _).2 hun
    rw [since_succ] at hm this
    omega

/-- the methods the code can construct are well formed -/
theorem epi_wellFormed (order s : Nat) (hs : 0 < s) (cfg : Cfg K) (h : epi order s = some cfg) :
    WellFormed cfg := by
  unfold epi at h
  match order, h with
  | 2, h => injection h with h; subst h; exact ⟨by simp, by simp, hs⟩
  | 3, h => injection h with h; subst h; exact ⟨by simp, by simp, hs⟩
  | 4, h => injection h with h; subst h; exact ⟨by simp, by simp, hs⟩
  | 5, h => injection h with h; subst h; exact ⟨by simp, by simp, hs⟩
  | 6, h => injection h with h; subst h; exact ⟨by simp, by simp, hs⟩
  | 0, h => exact absurd h (by simp [table])
  | 1, h => exact absurd h (by simp [table])
  | n + 7, h => exact absurd h (by simp [table])

theorem epiStiff_wellFormed (order s : Nat) (hs : 0 < s) (cfg : Cfg K) (h : epiStiff order s = some cfg) :
    WellFormed cfg := by
  unfold epiStiff at h
  split at h
  · exact absurd h (by simp)
  · injection h with h
    subst h
    refine ⟨?_, ?_, hs⟩
    · intro row hrow
      simp only [alphaCoeff, List.mem_map] at hrow
      obtain ⟨k, _, rfl⟩ := hrow
      simp
    · intro hp
      simp only [stiffNodes, alphaCoeff, List.length_map, List.length_range] at hp ⊢
      have : 2 < order := by omega
      simp only [this, ↓reduceIte]
      omega

/-- the number of past states the methods need -/
theorem epi_nPrev (order s : Nat) (cfg : Cfg K) (h : epi order s = some cfg) :
    cfg.nPrev = order - 2 := by
  unfold epi at h
  match order, h with
  | 2, h => injection h with h; subst h; rfl
  | 3, h => injection h with h; subst h; rfl
  | 4, h => injection h with h; subst h; rfl
  | 5, h => injection h with h; subst h; rfl
  | 6, h => injection h with h; subst h; rfl
  | 0, h => exact absurd h (by simp [table])
  | 1, h => exact absurd h (by simp [table])
  | n + 7, h => exact absurd h (by simp [table])

/-- non-vacuity: both families can be constructed with the ten start-up sub-steps the simulation uses,
    and a run with a change of step size meets both cases of `C24_multistep` -/
example : (∃ c : Cfg ℚ, epi 5 10 = some c ∧ WellFormed c ∧ c.nPrev = 3) ∧
    (∃ c : Cfg ℚ, epiStiff 5 10 = some c ∧ WellFormed c ∧ c.nPrev = 3) := by
  refine ⟨⟨_, rfl, epi_wellFormed 5 10 (by norm_num) _ rfl, rfl⟩,
    ⟨_, rfl, epiStiff_wellFormed 5 10 (by norm_num) _ rfl, by simp [stiffNodes]⟩⟩

example : Uninterrupted (fun n => if n < 5 then (1 : ℚ) else 2) 4 3 ∧
    ¬ Uninterrupted (fun n => if n < 5 then (1 : ℚ) else 2) 6 3 := by
  constructor
  · refine ⟨by norm_num, fun j h1 h2 => ?_⟩
    rintro (h | ⟨-, h⟩)
    · omega
    · have e1 : j - 1 < 5 := by omega
      have e2 : j < 5 := by omega
      simp only [e1, e2, ↓reduceIte] at h
      norm_num at h
  · rintro ⟨-, h⟩
    refine h 5 (by norm_num) (by norm_num) (Or.inr ⟨by norm_num, ?_⟩)
    norm_num

end C24

/-! ## C25 -/

section C25
variable [Field K]
open PowerSeries

/-- the sum `Σ_k φ_k(λ t) v_k` the exponential solver stands for, as a power series in the step -/
noncomputable def phiCombination (lam : K) (vec : List K⟦X⟧) : K⟦X⟧ :=
  (vec.zipIdx.map fun p => phiSeries p.2 lam * p.1).sum

theorem zipIdx_sum {M : Type*} [AddCommMonoid M] (L : Nat) {β : Type*} (g : Nat → β) (F : β × Nat → M) :
    ((((List.range L).map g).zipIdx).map F).sum = ∑ k ∈ Finset.range L, F (g k, k) := by
  have : (((List.range L).map g).zipIdx) = (List.range L).map fun k => (g k, k) := by
    apply List.ext_getElem
    · simp
    · intro i h1 h2
      simp
  rw [this, List.map_map, Finset.sum_range]
  rw [← List.sum_ofFn]
  congr 1
  apply List.ext_getElem <;> simp

/-- coefficient of row `row` and past state `i` -/
def entry (cfg : Cfg K) (row i : Nat) : K :=
  if cfg.first ≤ row then (cfg.A.getD (row - cfg.first) []).getD i 0 else 0

set_option maxHeartbeats 2000000 in
/-- the classical order conditions of the tables -/
theorem conditions [CharZero K] (p s : Nat) (cfg : Cfg K) (h : epi p s = some cfg) (j l : Nat) (hj : 2 ≤ j)
    (hjl : j + l + 1 ≤ p) :
    ∑ row ∈ Finset.range (cfg.maxPhi + 1), ∑ i ∈ Finset.range cfg.nPrev,
      entry cfg row i * ((-((i : K) + 1)) ^ j / (j.factorial : K)) / ((l + row).factorial : K) =
      1 / ((l + j + 1).factorial : K) := by
  unfold epi at h
  match p, h with
  | 2, h => omega
  | 3, h =>
    injection h with h; subst h
    obtain ⟨rfl, rfl⟩ : j = 2 ∧ l = 0 := by omega
    simp [Finset.sum_range_succ, entry, Nat.factorial]
    norm_num
  | 4, h =>
    injection h with h; subst h
    have : j ≤ 3 := by omega
    have : l ≤ 1 := by omega
    interval_cases j <;> interval_cases l <;> first | omega | skip
    all_goals
      simp [Finset.sum_range_succ, entry, Nat.factorial]
      norm_num
  | 5, h =>
    injection h with h; subst h
    have : j ≤ 4 := by omega
    have : l ≤ 2 := by omega
    interval_cases j <;> interval_cases l <;> first | omega | skip
    all_goals
      simp [Finset.sum_range_succ, entry, Nat.factorial]
      norm_num
  | 6, h =>
    injection h with h; subst h
    have : j ≤ 5 := by omega
    have : l ≤ 3 := by omega
    interval_cases j <;> interval_cases l <;> first | omega | skip
    all_goals
      simp [Finset.sum_range_succ, entry, Nat.factorial]
      norm_num
  | 0, h => exact absurd h (by simp [table])
  | 1, h => exact absurd h (by simp [table])
  | n + 7, h => exact absurd h (by simp [table])

/-- the exact solution, coefficient by coefficient -/
theorem exact_coeff [CharZero K] (lam f : K) (a : Nat → K) (y : K⟦X⟧) (hy0 : coeff 0 y = 0)
    (hy : d⁄dX K y = C f + C lam * y + mk (fun j => a j / (j.factorial : K))) (m : Nat) :
    coeff (m + 1) y = (lam ^ m * f + ∑ j ∈ Finset.range (m + 1), lam ^ (m - j) * a j) / ((m + 1).factorial : K) := by
  have key : ∀ m, coeff (m + 1) y * ((m : K) + 1) =
      (if m = 0 then f else 0) + lam * coeff m y + a m / (m.factorial : K) := by
    intro m
    have := congrArg (coeff m) hy
    rw [coeff_derivative, map_add, map_add, coeff_mk, coeff_C_mul, coeff_C] at this
    exact this
  have hne : ∀ m : Nat, ((m : K) + 1) ≠ 0 := fun m => by exact_mod_cast Nat.succ_ne_zero m
  have hf : ∀ m : Nat, (m.factorial : K) ≠ 0 := fun m => by exact_mod_cast Nat.factorial_ne_zero m
  induction m with
  | zero =>
    have := key 0
    simp only [hy0, ↓reduceIte, Nat.cast_zero, zero_add, mul_one, mul_zero, add_zero, Nat.factorial] at this
    simp only [zero_add, this, Finset.sum_range_one, Nat.factorial]
    simp
  | succ m ih =>
    have h := key (m + 1)
    rw [ih] at h
    have h2 : coeff (m + 1 + 1) y =
        (lam * ((lam ^ m * f + ∑ j ∈ Finset.range (m + 1), lam ^ (m - j) * a j) / ((m + 1).factorial : K)) +
          a (m + 1) / ((m + 1).factorial : K)) / (((m + 1 : ℕ) : K) + 1) := by
      rw [eq_div_iff (hne _), h]
      simp
    rw [h2, Finset.sum_range_succ (fun j => lam ^ (m + 1 - j) * a j) (m + 1), Nat.sub_self, pow_zero, one_mul,
      show (m + 1 + 1).factorial = (m + 1 + 1) * (m + 1).factorial from rfl]
    have h3 : ∑ j ∈ Finset.range (m + 1), lam ^ (m + 1 - j) * a j =
        lam * ∑ j ∈ Finset.range (m + 1), lam ^ (m - j) * a j := by
      rw [Finset.mul_sum]
      apply Finset.sum_congr rfl
      intro j hj
      have : m + 1 - j = (m - j) + 1 := by have := Finset.mem_range.1 hj; omega
      rw [this, pow_succ]; ring
    rw [h3]
    have := hf (m + 1)
    have := hne (m + 1)
    push_cast
    push_cast at this
    field_simp
    ring

/-- the nonlinear remainder at `t_n - (i+1) h`, as a power series in the step `h` -/
noncomputable def sampled (a : Nat → K) (i : Nat) : K⟦X⟧ :=
  mk fun j => a j * (-((i : K) + 1)) ^ j / (j.factorial : K)

/-- **C25.** Let `y` be the exact solution of `y' = f + λ y + r(t)`, `y(0) = 0`, where `r(t) = Σ a_j t^j / j!`
    has no constant and no linear term, as is the case for the remainder of a linearization.  Feed the EPI method
    of order `p` with the exact values of the remainder at the previous steps.  Then the update
    `h Σ_k φ_k(λ h) v_k` agrees with `y(h)` up to and including order `h^p`. -/
theorem C25_order [CharZero K] (p s : Nat) (cfg : Cfg K) (h : epi p s = some cfg) (ext : Ext K K⟦X⟧)
    (lam f : K) (a : Nat → K) (ha0 : a 0 = 0) (ha1 : a 1 = 0) (Q : K⟦X⟧) (P : Nat → K⟦X⟧)
    (hf : ext.rhs Q = C f) (hP : ∀ i, remainder ext Q (P i) = sampled a i)
    (y : K⟦X⟧) (hy0 : coeff 0 y = 0)
    (hy : d⁄dX K y = C f + C lam * y + mk (fun j => a j / (j.factorial : K))) :
    ∀ m ≤ p, coeff m (X * phiCombination lam (multistepVectors cfg ext Q P)) = coeff m y := by
  intro m hm
  cases m with
  | zero => rw [coeff_zero_X_mul, hy0]
  | succ m =>
    rw [coeff_succ_X_mul, exact_coeff lam f a y hy0 hy m]
    unfold phiCombination multistepVectors
    rw [zipIdx_sum]
    have hmp : 1 ≤ cfg.maxPhi := by
      unfold epi at h
      cases ht : table p with
      | none => rw [ht] at h; exact absurd h (by simp)
      | some A => rw [ht] at h; injection h with h; subst h; simp
    have e1 : ∀ row, phiSeries row lam * ((if row = 1 then ext.rhs Q else 0) +
        ∑ i ∈ Finset.range cfg.nPrev, (if cfg.first ≤ row then
          (cfg.A.getD (row - cfg.first) []).getD i 0 else 0) • remainder ext Q (P i)) =
        (if row = 1 then phiSeries 1 lam * C f else 0) +
          ∑ i ∈ Finset.range cfg.nPrev, entry cfg row i • (phiSeries row lam * sampled a i) := by
      intro row
      rw [mul_add, Finset.mul_sum]
      congr 1
      · split
        · rename_i h1; rw [h1, hf]
        · rw [mul_zero]
      · apply Finset.sum_congr rfl
        intro i _
        rw [hP, mul_smul_comm]; rfl
    simp only [e1]
    rw [Finset.sum_add_distrib, map_add]
    have e2 : (∑ row ∈ Finset.range (cfg.maxPhi + 1), if row = 1 then phiSeries 1 lam * C f else 0) =
        phiSeries 1 lam * C f := by
      rw [Finset.sum_ite_eq' (Finset.range (cfg.maxPhi + 1)) 1]
      rw [if_pos (Finset.mem_range.2 (by omega))]
    rw [e2, map_sum]
    have e3 : coeff m (phiSeries 1 lam * C f : K⟦X⟧) = lam ^ m * f / ((m + 1).factorial : K) := by
      rw [coeff_mul_C, phiSeries, coeff_mk]; ring
    rw [e3, add_div]
    congr 1
    have e4 : ∀ row i, coeff m (entry cfg row i • (phiSeries row lam * sampled a i)) =
        ∑ j ∈ Finset.range (m + 1), lam ^ (m - j) * a j *
          (entry cfg row i * ((-((i : K) + 1)) ^ j / (j.factorial : K)) / ((m - j + row).factorial : K)) := by
      intro row i
      rw [map_smul, smul_eq_mul, mul_comm (phiSeries row lam), coeff_mul,
        Finset.Nat.sum_antidiagonal_eq_sum_range_succ_mk, Finset.mul_sum]
      apply Finset.sum_congr rfl
      intro j _
      simp only [sampled, phiSeries, coeff_mk]
      ring
    simp only [map_sum, e4]
    simp only [Finset.sum_comm (s := Finset.range cfg.nPrev)]
    rw [Finset.sum_comm, Finset.sum_div]
    apply Finset.sum_congr rfl
    intro j hj
    have hj' : j ≤ m := by have := Finset.mem_range.1 hj; omega
    simp only [← Finset.mul_sum]
    by_cases hj2 : 2 ≤ j
    · rw [conditions p s cfg h j (m - j) hj2 (by omega), show m - j + j + 1 = m + 1 by omega]
      ring
    · have : a j = 0 := by
        have : j = 0 ∨ j = 1 := by omega
        rcases this with rfl | rfl <;> assumption
      rw [this]; ring

/-- non-vacuity of `C25_order`: the problem `y' = 1 + t²/2`, whose solution is `t + t³/6`, with past states
    that are told apart by their constant coefficient -/
example : ∃ (cfg : Cfg ℚ) (ext : Ext ℚ ℚ⟦X⟧) (a : Nat → ℚ) (P : Nat → ℚ⟦X⟧) (y : ℚ⟦X⟧),
    epi 6 10 = some cfg ∧ a 0 = 0 ∧ a 1 = 0 ∧ a 2 ≠ 0 ∧ ext.rhs 0 = C 1 ∧
    (∀ i, remainder ext 0 (P i) = sampled a i) ∧ coeff 0 y = 0 ∧
    d⁄dX ℚ y = C 1 + C 0 * y + mk (fun j => a j / (j.factorial : ℚ)) := by
  refine ⟨_, ⟨fun v => C 1 + C ((constantCoeff v) ^ 2 / 2) * X ^ 2, fun _ _ => 0, fun _ _ _ => 0, fun v _ => v⟩,
    fun j => if j = 2 then 1 else 0, fun i => C ((i : ℚ) + 1), X + C (1 / 6) * X ^ 3,
    rfl, by norm_num, by norm_num, by norm_num, by simp, fun i => ?_, by simp, ?_⟩
  · ext j
    simp only [remainder, sampled, coeff_mk, constantCoeff_C, map_zero, map_sub, map_add, coeff_C_mul,
      coeff_X_pow]
    by_cases h : j = 2
    · subst h; simp [Nat.factorial]; ring
    · simp [h]
  · ext j
    rw [coeff_derivative]
    simp only [map_add, coeff_X, coeff_C_mul, coeff_X_pow, coeff_mk, coeff_C, zero_mul, map_zero]
    match j with
    | 0 => simp
    | 1 => simp
    | 2 => simp [Nat.factorial]; norm_num
    | n + 3 => simp

end C25

/-! ## C26 -/

section C26
variable [Field K]
open Polynomial

theorem entry_alpha (c : List K) (k i : Nat) (hk : k < c.length) (hi : i < c.length) :
    ((alphaCoeff c).getD k []).getD i 0 = alphaEntry c k i c[i] := by
  unfold alphaCoeff
  simp [hk, hi]

theorem others_map (c : List K) (i : Fin c.length) :
    (Finset.univ.erase i).val.map (fun j => c[j]) = ((c.eraseIdx i : List K) : Multiset K) := by
  have h1 : (Finset.univ : Finset (Fin c.length)).val.map (fun j => c[j]) = (c : Multiset K) := by
    rw [Fin.univ_val_map]
    congr 1
    exact List.ofFn_getElem
  have h2 : (c : Multiset K) = c[i] ::ₘ ((c.eraseIdx i : List K) : Multiset K) := by
    rw [Multiset.cons_coe, Multiset.coe_eq_coe]
    exact (List.getElem_cons_eraseIdx_perm i.2).symm
  have h3 : (Finset.univ : Finset (Fin c.length)).val = i ::ₘ (Finset.univ.erase i).val := by
    have : (Finset.univ : Finset (Fin c.length)) = insert i (Finset.univ.erase i) := by
      rw [Finset.insert_erase (Finset.mem_univ i)]
    conv_lhs => rw [this]
    rw [Finset.insert_val_of_notMem (Finset.notMem_erase i _)]
  rw [h3, Multiset.map_cons, h2] at h1
  exact (Multiset.cons_inj_right _).1 h1

/-- the coefficient of the Lagrange basis polynomial -/
theorem basis_coeff (c : List K) (i : Fin c.length) (k : Nat) (hk : k < c.length) :
    (Lagrange.basis Finset.univ (fun j : Fin c.length => c[j]) i).coeff k =
      (-1) ^ (c.length - k + 1) * ((List.sublistsLen (c.length - k - 1) (others c i)).map List.prod).sum /
        ((others c i).map (fun cl => c[i] - cl)).prod := by
  unfold Lagrange.basis Lagrange.basisDivisor
  rw [Finset.prod_mul_distrib, ← map_prod, coeff_C_mul]
  have e1 : ∏ j ∈ Finset.univ.erase i, (X - C c[j]) =
      (((c.eraseIdx i : List K) : Multiset K).map fun t => X - C t).prod := by
    rw [← others_map, Multiset.map_map]; rfl
  have e2 : ∏ j ∈ Finset.univ.erase i, (c[i] - c[j])⁻¹ = (((others c i).map (fun cl => c[i] - cl)).prod)⁻¹ := by
    rw [Finset.prod_inv_distrib]
    congr 1
    have : ((others c i).map (fun cl => c[i] - cl)).prod =
        (((c.eraseIdx i : List K) : Multiset K).map (fun cl => c[i] - cl)).prod := by
      rw [Multiset.map_coe, Multiset.prod_coe]; rfl
    rw [this, ← others_map, Multiset.map_map]; rfl
  have hcard : Multiset.card ((c.eraseIdx i : List K) : Multiset K) = c.length - 1 := by
    rw [Multiset.coe_card, List.length_eraseIdx_of_lt i.2]
  rw [e1, e2, Multiset.prod_X_sub_C_coeff _ (by rw [hcard]; omega), hcard]
  have e3 : ((c.eraseIdx i : List K) : Multiset K).esymm (c.length - 1 - k) =
      ((List.sublistsLen (c.length - k - 1) (others c i)).map List.prod).sum := by
    unfold Multiset.esymm others
    rw [Multiset.powersetCard_coe, Multiset.map_coe, Multiset.sum_coe, List.map_map,
      show c.length - 1 - k = c.length - k - 1 by omega]
    congr 1
  rw [e3, show c.length - k + 1 = (c.length - 1 - k) + 2 by omega, pow_add]
  ring

/-- **C26.** For distinct non-zero nodes the coefficients recover the derivatives of a remainder `s² p(s)`
    sampled at the nodes, for every polynomial `p` of degree smaller than the number of nodes. -/
theorem C26_alpha (c : List K) (hnd : c.Nodup) (hnz : ∀ x ∈ c, x ≠ 0) (p : K[X]) (hp : p.degree < c.length)
    (k : Nat) (hk : k < c.length) :
    ∑ i ∈ Finset.range c.length, ((alphaCoeff c).getD k []).getD i 0 * ((c.getD i 0) ^ 2 * p.eval (c.getD i 0)) =
      ((k + 2).factorial : K) * p.coeff k := by
  have hinj : Set.InjOn (fun j : Fin c.length => c[j]) (Finset.univ : Finset (Fin c.length)) := by
    intro a _ b _ hab
    exact Fin.ext ((List.Nodup.getElem_inj_iff hnd).1 hab)
  have hdeg : p.degree < (Finset.univ : Finset (Fin c.length)).card := by
    rw [Finset.card_univ, Fintype.card_fin]; exact hp
  have key := Lagrange.eq_interpolate hinj hdeg
  have hc := congrArg (fun q => q.coeff k) key
  simp only [Lagrange.interpolate_apply, finsetSum_coeff, coeff_C_mul] at hc
  rw [hc, Finset.mul_sum, Finset.sum_range]
  apply Finset.sum_congr rfl
  intro i _
  rw [entry_alpha c k i hk i.2, basis_coeff c i k hk]
  unfold alphaEntry
  have hi : c.getD i 0 = c[i] := by simp
  have hne : c[i] ≠ 0 := hnz _ (List.getElem_mem _)
  rw [hi]
  dsimp only
  have hfin : c[(i : Nat)] = c[i] := rfl
  rw [hfin]
  by_cases hz : ((others c i).map (fun cl => c[i] - cl)).prod = 0
  · rw [hz]; simp
  · field_simp

theorem stiffNodes_eq (order : Nat) :
    stiffNodes (K := K) order = (List.range (order - 2)).map fun (j : Nat) => ((j : K) + 1) := by
  unfold stiffNodes
  rw [List.map_map]
  apply List.map_congr_left
  intro j _
  simp only [Function.comp]
  push_cast
  ring

/-- What the stiff EPI integrator makes of the past states: the remainder `s² p(s)` sampled at the previous steps
    `s = -1, -2, …` is turned into `(-1)^k (k+2)! p_k` instead of `(k+2)! p_k`.
    _Missing for the full property: the rows with odd `k` have the wrong sign (`C26_stiff_fails`)._ -/
theorem C26_stiff_partial [CharZero K] (order s : Nat) (cfg : Cfg K) (h : epiStiff order s = some cfg)
    (p : K[X]) (hp : p.degree < cfg.nPrev) (k : Nat) (hk : k < cfg.nPrev) :
    ∑ i ∈ Finset.range cfg.nPrev, (cfg.A.getD k []).getD i 0 *
        ((-((i : K) + 1)) ^ 2 * p.eval (-((i : K) + 1))) =
      (-1) ^ k * (((k + 2).factorial : K) * p.coeff k) := by
  unfold epiStiff at h
  split at h
  · exact absurd h (by simp)
  · injection h with h
    subst h
    simp only at hp hk ⊢
    have hnd : (stiffNodes (K := K) order).Nodup := by
      rw [stiffNodes_eq]
      apply List.Nodup.map _ List.nodup_range
      intro a b hab
      exact_mod_cast add_right_cancel hab
    have hnz : ∀ x ∈ stiffNodes (K := K) order, x ≠ 0 := by
      rw [stiffNodes_eq]
      intro x hx
      obtain ⟨j, _, rfl⟩ := List.mem_map.1 hx
      exact_mod_cast Nat.succ_ne_zero j
    have hdeg : (p.comp (C (-1) * X)).degree < (stiffNodes (K := K) order).length := by
      rw [degree_lt_iff_coeff_zero] at hp ⊢
      intro n hn
      rw [comp_C_mul_X_coeff, hp n hn, zero_mul]
    have := C26_alpha (stiffNodes (K := K) order) hnd hnz (p.comp (C (-1) * X)) hdeg k hk
    have hcoef : (p.comp (C (-1) * X)).coeff k = (-1) ^ k * p.coeff k := by
      rw [comp_C_mul_X_coeff]; ring
    rw [hcoef] at this
    rw [show (-1 : K) ^ k * (((k + 2).factorial : K) * p.coeff k) =
      ((k + 2).factorial : K) * ((-1) ^ k * p.coeff k) by ring, ← this]
    apply Finset.sum_congr rfl
    intro i hi
    have hi' := Finset.mem_range.1 hi
    have hl : (stiffNodes (K := K) order).length = order - 2 := by rw [stiffNodes_eq]; simp
    have hg : (stiffNodes (K := K) order).getD i 0 = (i : K) + 1 := by
      rw [stiffNodes_eq]
      rw [hl] at hi'
      simp [hi']
    rw [hg, eval_comp]
    simp only [eval_mul, eval_C, eval_X, neg_one_mul]
    ring

/-- Where the stiff EPI integrator puts these sums: when the nonlinear remainders at the past states are
    `s² p(s) • w` for `s = -1, -2, …`, the vector multiplied with `φ_{k+3}` is `(-1)^k (k+2)! p_k • w`
    (the exact propagator needs the derivative of order `k+2` there), the one multiplied with `φ_1` is the right-hand
    side, and those of `φ_0` and `φ_2` are zero.
    _Missing for the full property: the sign for odd `k`._ -/
theorem C26_stiff_vectors_partial [CharZero K] [LinearOrder K] [AddCommGroup V] [Module K V] (order s : Nat)
    (cfg : Cfg K) (h : epiStiff order s = some cfg) (ext : Ext K V) (Q w : V) (P : Nat → V) (p : K[X])
    (hp : p.degree < cfg.nPrev)
    (hP : ∀ i < cfg.nPrev, remainder ext Q (P i) = ((-((i : K) + 1)) ^ 2 * p.eval (-((i : K) + 1))) • w) :
    (∀ k < cfg.nPrev, (multistepVectors cfg ext Q P)[k + 3]? =
      some (((-1) ^ k * (((k + 2).factorial : K) * p.coeff k)) • w)) ∧
    (multistepVectors cfg ext Q P)[0]? = some 0 ∧
    (multistepVectors cfg ext Q P)[1]? = some (ext.rhs Q) ∧
    (2 < order → (multistepVectors cfg ext Q P)[2]? = some 0) ∧
    (multistepVectors cfg ext Q P).length = if 2 < order then cfg.nPrev + 3 else 2 := by
  have hA := C26_stiff_partial order s cfg h p hp
  unfold epiStiff at h
  split at h
  · exact absurd h (by simp)
  · injection h with h
    have h1 : cfg.first = 3 := by rw [← h]
    have h2 : cfg.maxPhi = if 2 < order then order else 1 := by rw [← h]
    have h3 : cfg.nPrev = order - 2 := by rw [← h, stiffNodes_eq]; simp
    have hget : ∀ row, row < cfg.maxPhi + 1 → (multistepVectors cfg ext Q P)[row]? =
        some ((if row = 1 then ext.rhs Q else 0) + ∑ i ∈ Finset.range cfg.nPrev,
          (if cfg.first ≤ row then (cfg.A.getD (row - cfg.first) []).getD i 0 else 0) •
            remainder ext Q (P i)) := by
      intro row hr
      unfold multistepVectors
      rw [List.getElem?_map, List.getElem?_range hr]
      rfl
    refine ⟨?_, ?_, ?_, ?_, ?_⟩
    · intro k hk
      have ho : 2 < order := by omega
      rw [hget (k + 3) (by rw [h2, if_pos ho]; omega), h1]
      simp only [show ¬ (k + 3 = 1) by omega, show 3 ≤ k + 3 by omega, ↓reduceIte, Nat.add_sub_cancel, zero_add]
      rw [← hA k hk, Finset.sum_smul]
      congr 1
      apply Finset.sum_congr rfl
      intro i hi
      rw [hP i (Finset.mem_range.1 hi), smul_smul]
    · rw [hget 0 (by omega), h1]; simp
    · rw [hget 1 (by rw [h2]; split_ifs <;> omega), h1]; simp
    · intro ho
      rw [hget 2 (by rw [h2, if_pos ho]; omega), h1]; simp
    · unfold multistepVectors
      rw [List.length_map, List.length_range, h2]
      split_ifs <;> omega

/-- The property fails for the stiff EPI integrator of every order from 4 on: with the remainder `s³` sampled at
    the previous steps, the coefficients do not return its derivative. -/
theorem C26_stiff_fails [CharZero K] (order s : Nat) (ho : 4 ≤ order) (cfg : Cfg K)
    (h : epiStiff order s = some cfg) :
    ¬ ∀ (p : K[X]), p.degree < cfg.nPrev → ∀ k, k < cfg.nPrev →
      ∑ i ∈ Finset.range cfg.nPrev, (cfg.A.getD k []).getD i 0 *
        ((-((i : K) + 1)) ^ 2 * p.eval (-((i : K) + 1))) = ((k + 2).factorial : K) * p.coeff k := by
  intro hall
  have hn : cfg.nPrev = order - 2 := by
    unfold epiStiff at h
    split at h
    · exact absurd h (by simp)
    · injection h with h
      subst h
      simp [stiffNodes_eq]
  have hd : (X : K[X]).degree < cfg.nPrev := by
    rw [degree_X, hn]
    have : 1 < order - 2 := by omega
    exact_mod_cast this
  have hk : 1 < cfg.nPrev := by omega
  have h1 := hall X hd 1 hk
  have h2 := C26_stiff_partial order s cfg h X hd 1 hk
  rw [h1] at h2
  simp [Nat.factorial] at h2
  norm_num at h2

/-- non-vacuity: order 5 has three nodes and a polynomial of degree two -/
example : ∃ cfg : Cfg ℚ, epiStiff 5 10 = some cfg ∧ (X ^ 2 : ℚ[X]).degree < cfg.nPrev ∧ 2 < cfg.nPrev := by
  refine ⟨_, rfl, ?_, ?_⟩
  · simp [stiffNodes]
    norm_num
  · simp [stiffNodes]

end C26

end WxVerif.Props.Epi
