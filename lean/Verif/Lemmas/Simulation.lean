import Verif.Model.Simulation
import Verif.Spec.Schedule
import Verif.Lemmas.Gather
import Mathlib.Tactic.Linarith
import Mathlib.Tactic.Ring
import Mathlib.Algebra.Order.Archimedean.Basic

/-! Helper lemmas on the simulation driver. -/

namespace WxVerif.Sim

open WxVerif.Schedule

variable {K I V : Type*} [Field K] [LinearOrder K] [IsStrictOrderedRing K]

/-- no step ever fails or produces a NaN -/
def NoFailure (env : Env K I V) : Prop :=
  ∀ i Q dt, (∀ p, p < env.size → (env.integ i Q dt).2.2 p = 0) ∧
    (∀ p, p < env.size → env.hasNaN (env.filters dt (env.integ i Q dt).2.1 p) = false)

/-- integrator state and solution after step number `n + 1` from those after step `n` -/
def advance (env : Env K I V) (tEnd dt : K) (n : Nat) (iq : I × (Nat → V)) : I × (Nat → V) :=
  ((env.integ iq.1 iq.2 (stepSize tEnd dt n)).1,
    env.winds (timeAfter tEnd dt (n + 1))
      (env.filters (stepSize tEnd dt n) (env.integ iq.1 iq.2 (stepSize tEnd dt n)).2.1))

/-- the same after the output of step `n + 1` -/
def next (env : Env K I V) (f : Freqs) (tEnd dt : K) (n : Nat) (iq : I × (Nat → V)) : I × (Nat → V) :=
  ((advance env tEnd dt n iq).1, afterOutput env f (advance env tEnd dt n iq).2 (n + 1))

/-- integrator state and solution `j` steps after step `a` -/
def traj (env : Env K I V) (f : Freqs) (tEnd dt : K) (a : Nat) (iq : I × (Nat → V)) : Nat → I × (Nat → V)
  | 0 => iq
  | j + 1 => next env f tEnd dt (a + j) (traj env f tEnd dt a iq j)

theorem step_noFailure {env : Env K I V} (hnf : NoFailure env) {cfg : Config K V} {s : State K I V} {a : Nat}
    (hdt : 0 < cfg.dt) (ht : s.t = a * cfg.dt) (hsdt : s.dt = cfg.dt) (hid : s.stepId = a) (hlt : a * cfg.dt < cfg.tEnd) :
    step env cfg s =
      ({ t := timeAfter cfg.tEnd cfg.dt (a + 1), dt := stepSize cfg.tEnd cfg.dt a, stepId := a + 1,
         integ := (next env cfg.freqs cfg.tEnd cfg.dt a (s.integ, s.Q)).1,
         Q := (next env cfg.freqs cfg.tEnd cfg.dt a (s.integ, s.Q)).2,
         steps := s.steps ++ [(a + 1, stepSize cfg.tEnd cfg.dt a, timeAfter cfg.tEnd cfg.dt (a + 1))],
         events := s.events ++
          outputStep env cfg.freqs (stepSize cfg.tEnd cfg.dt a) (advance env cfg.tEnd cfg.dt a (s.integ, s.Q)).2 (a + 1) }, .more) := by
  have h0 : timeAfter cfg.tEnd cfg.dt a = a * cfg.dt := min_eq_left hlt.le
  have hsum : (a : K) * cfg.dt + cfg.dt = ((a + 1 : Nat) : K) * cfg.dt := by push_cast; ring
  have hT : (if s.t + s.dt > cfg.tEnd then cfg.tEnd else s.t + s.dt) = timeAfter cfg.tEnd cfg.dt (a + 1) := by
    rw [ht, hsdt, hsum]
    unfold timeAfter
    split
    · rename_i h; rw [min_eq_right (le_of_lt h)]
    · rename_i h; rw [min_eq_left (not_lt.1 h)]
  have hD : (if s.t + s.dt > cfg.tEnd then cfg.tEnd - s.t else s.dt) = stepSize cfg.tEnd cfg.dt a := by
    unfold stepSize
    rw [← hT, h0]
    split
    · rw [ht]
    · rw [ht, hsdt]; ring
  unfold step
  rw [if_pos (by rw [ht]; exact hlt)]
  simp only [hT, hD, hid]
  obtain ⟨hf, hn⟩ := hnf s.integ s.Q (stepSize cfg.tEnd cfg.dt a)
  have hnan : nanAnywhere env (env.filters (stepSize cfg.tEnd cfg.dt a)
      (env.integ s.integ s.Q (stepSize cfg.tEnd cfg.dt a)).2.1) = false := by
    unfold nanAnywhere
    rw [List.any_eq_false]
    intro p hp
    rw [hn p (List.mem_range.1 hp)]; simp
  rw [hnan]
  have hall : ((List.range env.size).all fun p =>
      (env.integ s.integ s.Q (stepSize cfg.tEnd cfg.dt a)).2.2 p == 0) = true := by
    rw [List.all_eq_true]
    intro p hp
    rw [hf p (List.mem_range.1 hp)]; rfl
  rw [hall]
  rfl

theorem step_done {env : Env K I V} {cfg : Config K V} {s : State K I V} (h : ¬ s.t < cfg.tEnd) :
    step env cfg s = (s, .stop) := by
  unfold step; rw [if_neg h]

theorem traj_succ' (env : Env K I V) (f : Freqs) (tEnd dt : K) (a : Nat) (iq : I × (Nat → V)) (j : Nat) :
    traj env f tEnd dt a iq (j + 1) = traj env f tEnd dt (a + 1) (next env f tEnd dt a iq) j := by
  induction j with
  | zero => rfl
  | succ j ih =>
    change next env f tEnd dt (a + (j + 1)) (traj env f tEnd dt a iq (j + 1)) = _
    rw [ih]
    change _ = next env f tEnd dt (a + 1 + j) _
    rw [show a + (j + 1) = a + 1 + j by omega]

/-- outputs of the `m` steps after step `a` -/
def stepEvents (env : Env K I V) (cfg : Config K V) (a : Nat) (iq : I × (Nat → V)) (m : Nat) : List (Event K V) :=
  (List.range m).flatMap fun j => outputStep env cfg.freqs (stepSize cfg.tEnd cfg.dt (a + j))
    (advance env cfg.tEnd cfg.dt (a + j) (traj env cfg.freqs cfg.tEnd cfg.dt a iq j)).2 (a + j + 1)

theorem stepEvents_succ (env : Env K I V) (cfg : Config K V) (a : Nat) (iq : I × (Nat → V)) (m : Nat) :
    stepEvents env cfg a iq (m + 1) =
      outputStep env cfg.freqs (stepSize cfg.tEnd cfg.dt a) (advance env cfg.tEnd cfg.dt a iq).2 (a + 1) ++
        stepEvents env cfg (a + 1) (next env cfg.freqs cfg.tEnd cfg.dt a iq) m := by
  unfold stepEvents
  rw [List.range_succ_eq_map, List.flatMap_cons, List.flatMap_map]
  congr 1
  apply List.flatMap_congr
  intro j _
  rw [Nat.succ_eq_add_one, traj_succ', show a + (j + 1) = a + 1 + j by omega]

theorem expectedSteps_succ (tEnd dt : K) (a m : Nat) :
    expectedSteps tEnd dt a (m + 1) =
      (a + 1, stepSize tEnd dt a, timeAfter tEnd dt (a + 1)) :: expectedSteps tEnd dt (a + 1) m := by
  unfold expectedSteps
  rw [List.range_succ_eq_map, List.map_cons, List.map_map]
  congr 1
  apply List.map_congr_left
  intro i _
  simp only [Function.comp, Nat.succ_eq_add_one]
  rw [show a + (i + 1) = a + 1 + i by omega]

theorem expectedSteps_add (tEnd dt : K) (a m n : Nat) :
    expectedSteps tEnd dt a (m + n) = expectedSteps tEnd dt a m ++ expectedSteps tEnd dt (a + m) n := by
  unfold expectedSteps
  rw [List.range_add, List.map_append, List.map_map]
  congr 1
  apply List.map_congr_left
  intro i _
  simp only [Function.comp, Nat.add_assoc]

/-- complete description of the loop when nothing fails: `m` steps remain -/
theorem loop_noFailure {env : Env K I V} (hnf : NoFailure env) {cfg : Config K V} (hdt : 0 < cfg.dt) (m : Nat) :
    ∀ (a : Nat) (s : State K I V) (fuel : Nat), s.t = a * cfg.dt → s.dt = cfg.dt → s.stepId = a →
      (∀ j < m, ((a + j : Nat) : K) * cfg.dt < cfg.tEnd) → cfg.tEnd ≤ ((a + m : Nat) : K) * cfg.dt → m < fuel →
      loop env cfg fuel s =
        ({ t := if m = 0 then s.t else cfg.tEnd
           dt := if m = 0 then s.dt else stepSize cfg.tEnd cfg.dt (a + m - 1)
           stepId := a + m
           integ := (traj env cfg.freqs cfg.tEnd cfg.dt a (s.integ, s.Q) m).1
           Q := (traj env cfg.freqs cfg.tEnd cfg.dt a (s.integ, s.Q) m).2
           steps := s.steps ++ expectedSteps cfg.tEnd cfg.dt a m
           events := s.events ++ stepEvents env cfg a (s.integ, s.Q) m }, some .stop) := by
  induction m with
  | zero =>
    intro a s fuel ht _ hid _ hge hfuel
    obtain ⟨fuel, rfl⟩ : ∃ f, fuel = f + 1 := ⟨fuel - 1, by omega⟩
    unfold loop
    rw [step_done (by rw [ht]; simpa using hge)]
    simp only [Nat.add_zero, if_true, expectedSteps, stepEvents, List.range_zero, List.map_nil, List.flatMap_nil,
      List.append_nil]
    rw [← hid]; rfl
  | succ m ih =>
    intro a s fuel ht hsdt hid hlt hge hfuel
    obtain ⟨fuel, rfl⟩ : ∃ f, fuel = f + 1 := ⟨fuel - 1, by omega⟩
    have hlt0 : (a : K) * cfg.dt < cfg.tEnd := by simpa using hlt 0 (by omega)
    unfold loop
    rw [step_noFailure hnf hdt ht hsdt hid hlt0]
    simp only
    by_cases hm : m = 0
    · -- the last step
      subst hm
      have hend : timeAfter cfg.tEnd cfg.dt (a + 1) = cfg.tEnd := min_eq_right hge
      obtain ⟨fuel, rfl⟩ : ∃ f, fuel = f + 1 := ⟨fuel - 1, by omega⟩
      unfold loop
      rw [step_done (by simp [hend])]
      simp [hend, expectedSteps, stepEvents, traj]
    · have hlt1 : ((a + 1 : Nat) : K) * cfg.dt < cfg.tEnd := hlt 1 (by omega)
      have h1 : timeAfter cfg.tEnd cfg.dt (a + 1) = ((a + 1 : Nat) : K) * cfg.dt := min_eq_left hlt1.le
      have h0 : timeAfter cfg.tEnd cfg.dt a = (a : K) * cfg.dt := min_eq_left hlt0.le
      have hs : stepSize cfg.tEnd cfg.dt a = cfg.dt := by
        unfold stepSize; rw [h0, h1]; push_cast; ring
      rw [ih (a + 1) _ fuel h1 hs rfl (fun j hj => by
          have := hlt (j + 1) (by omega)
          rwa [show a + 1 + j = a + (j + 1) by omega])
        (by rwa [show a + 1 + m = a + (m + 1) by omega]) (by omega)]
      rw [traj_succ', expectedSteps_succ, stepEvents_succ]
      simp [hm, show a + 1 + m = a + (m + 1) by omega, List.append_assoc]

/-- number of steps that remain after step `a` -/
theorem remaining_exists [Archimedean K] {tEnd dt : K} (hdt : 0 < dt) (a : Nat) :
    ∃ m : Nat, (∀ j < m, ((a + j : Nat) : K) * dt < tEnd) ∧ tEnd ≤ ((a + m : Nat) : K) * dt := by
  classical
  have hex : ∃ m : Nat, tEnd ≤ ((a + m : Nat) : K) * dt := by
    obtain ⟨n, hn⟩ := Archimedean.arch tEnd hdt
    refine ⟨n, hn.trans ?_⟩
    rw [nsmul_eq_mul]
    apply mul_le_mul_of_nonneg_right _ hdt.le
    push_cast
    have : (0 : K) ≤ a := Nat.cast_nonneg a
    linarith
  exact ⟨Nat.find hex, fun j hj => not_le.1 (Nat.find_min hex hj), Nat.find_spec hex⟩

theorem remaining_eq_ceil [FloorRing K] {tEnd dt : K} (hdt : 0 < dt) {a m : Nat}
    (hlt : ∀ j < m, ((a + j : Nat) : K) * dt < tEnd) (hge : tEnd ≤ ((a + m : Nat) : K) * dt) :
    m = (⌈tEnd / dt⌉ - a).toNat := by
  have h1 : ⌈tEnd / dt⌉ ≤ ((a + m : Nat) : Int) := by
    rw [Int.ceil_le, div_le_iff₀ hdt]
    exact_mod_cast hge
  rcases Nat.eq_zero_or_pos m with rfl | hm
  · omega
  · have h2 : ((a + (m - 1) : Nat) : Int) < ⌈tEnd / dt⌉ := by
      rw [Int.lt_ceil, lt_div_iff₀ hdt]
      exact_mod_cast hlt (m - 1) (by omega)
    omega

/-- complete description of a run in which nothing fails -/
theorem run_noFailure [FloorRing K] {env : Env K I V} (hnf : NoFailure env) (cfg : Config K V) (i0 : I) (hdt : 0 < cfg.dt) (fuel : Nat)
    (hfuel : (⌈cfg.tEnd / cfg.dt⌉ - cfg.startingStep).toNat < fuel) :
    ∃ s', run env cfg fuel (init env cfg i0) = (s', some .stop) ∧
      s'.Q = (traj env cfg.freqs cfg.tEnd cfg.dt cfg.startingStep (i0, initialArray env cfg)
        (⌈cfg.tEnd / cfg.dt⌉ - cfg.startingStep).toNat).2 ∧
      s'.events = outputStep env cfg.freqs cfg.dt cfg.initialQ cfg.startingStep ++
        stepEvents env cfg cfg.startingStep (i0, initialArray env cfg) (⌈cfg.tEnd / cfg.dt⌉ - cfg.startingStep).toNat ++ [.finalize] := by
  obtain ⟨m, hlt, hge⟩ := remaining_exists (tEnd := cfg.tEnd) hdt cfg.startingStep
  have hm := remaining_eq_ceil hdt hlt hge
  rw [← hm] at hfuel ⊢
  have hcomm : (cfg.dt * (cfg.startingStep : K)) = (cfg.startingStep : K) * cfg.dt := mul_comm _ _
  have hloop := loop_noFailure (env := env) hnf hdt m cfg.startingStep
    { init env cfg i0 with stepId := cfg.startingStep, Q := initialArray env cfg } fuel hcomm rfl rfl hlt hge hfuel
  unfold run
  rw [hloop]
  exact ⟨_, rfl, rfl, rfl⟩

theorem range'_filter_flatMap {β : Type*} (a m : Nat) (p : Nat → Bool) (g : Nat → List β) (h : Nat → β)
    (hg : ∀ id, g id = if p id then [h id] else []) :
    (List.range' a m).flatMap g = ((List.range' a m).filter p).map h := by
  induction m generalizing a with
  | zero => simp
  | succ m ih =>
    rw [List.range'_succ, List.flatMap_cons, List.filter_cons, ih, hg]
    split <;> simp

end WxVerif.Sim
