/-
C70 — `exode` computes the combination of φ functions by integrating an ordinary differential equation.
-/
import Mathlib.Analysis.ODE.ExistUnique
import Mathlib.Data.List.GetD
import Mathlib.Analysis.SpecialFunctions.Exponential
import Mathlib.Analysis.Calculus.Deriv.Prod
import Verif.Model.Exode
import Verif.Props.Augmented
import Verif.Props.RungeKutta
import Verif.Model.Butcher

namespace WxVerif.Props.Exode

open WxVerif.Exode WxVerif.RungeKutta WxVerif.Spec.Krylov WxVerif.Props.RungeKutta

section Exact
variable {V : Type*} [NormedAddCommGroup V] [NormedSpace ℝ V] [CompleteSpace V]

/-- **C70 (equation).**  The combination of φ functions solves the differential equation that `exode` integrates, from the first vector. -/
theorem C70_equation (A : V →L[ℝ] V) (u : List V) (hu : 2 ≤ u.length) (t : ℝ) :
    HasDerivAt (fun s => phiSum (u.length - 1) A (fun j => u.getD j 0) s) (field A u t (phiSum (u.length - 1) A (fun j => u.getD j 0) t)) t ∧
    phiSum (u.length - 1) A (fun j => u.getD j 0) 0 = u.getD 0 0 := by
  set p := u.length - 1 with hp
  have hp1 : 1 ≤ p := by omega
  set w : Nat → V := fun j => u.getD j 0 with hw
  set T := Augmented.augCLM A (Krylov.uFlip (1 : ℝ) p w) with hT
  set v0 : V × (Fin p → ℝ) := Krylov.startVec p (w 0) (1 : ℝ) 0 with hv0
  have hsum : ∀ s : ℝ, phiSum p A w s = (NormedSpace.exp (s • T) v0).1 := fun s =>
    (Augmented.C32_first_substep p hp1 A w 1 1 (by norm_num) s).symm
  constructor
  · have h1 : HasDerivAt (fun s : ℝ => NormedSpace.exp (s • T)) (T * NormedSpace.exp (t • T)) t := hasDerivAt_exp_smul_const' T t
    have h2 : HasDerivAt (fun s : ℝ => NormedSpace.exp (s • T) v0) ((T * NormedSpace.exp (t • T)) v0) t := by
      have := h1.clm_apply (hasDerivAt_const t v0)
      simpa using this
    have h3 : HasDerivAt (fun s : ℝ => (NormedSpace.exp (s • T) v0).1) ((T * NormedSpace.exp (t • T)) v0).1 t :=
      (ContinuousLinearMap.fst ℝ V (Fin p → ℝ)).hasFDerivAt.comp_hasDerivAt t h2
    have e : ((T * NormedSpace.exp (t • T)) v0).1 = field A u t (phiSum p A w t) := by
      rw [ContinuousLinearMap.mul_apply, hT, Augmented.augCLM_apply, ← hT]
      simp only [Krylov.augMul, field, ← hp]
      rw [← hsum]
      congr 1
      have htail : ∀ k : Fin p, (NormedSpace.exp (t • T) v0).2 k = t ^ (p - 1 - k) / ((p - 1 - k).factorial : ℝ) * 1 :=
        fun k => Augmented.C32_exact_tail p hp1 A w 1 1 (by norm_num) t k
      simp only [htail, Krylov.uFlip, mul_one, one_smul]
      rw [← Finset.sum_range_reflect, Finset.sum_range]
      refine Finset.sum_congr rfl fun k _ => ?_
      have hk := k.2
      have e1 : p - 1 - (k : Nat) + 1 = p - k := by omega
      rw [hw]
      simp only [e1]
    rw [e] at h3
    refine h3.congr_of_eventuallyEq (Filter.Eventually.of_forall fun s => hsum s)
  · rw [hsum 0, zero_smul, NormedSpace.exp_zero]
    rfl

/-- **C70 (exact answer).**  Any curve on [0, 1] that follows the equation `exode` integrates from the first vector ends at
`Σ_j φ_j(A) u_j`, the combination that the Krylov solvers compute for time 1: this is the value the adaptive integration approximates. -/
theorem C70_exact (A : V →L[ℝ] V) (u : List V) (hu : 2 ≤ u.length) (y : ℝ → V) (hy0 : y 0 = u.getD 0 0)
    (hcont : ContinuousOn y (Set.Icc 0 1)) (hy : ∀ t ∈ Set.Ico (0 : ℝ) 1, HasDerivWithinAt y (field A u t (y t)) (Set.Ici t) t) :
    y 1 = ∑ j ∈ Finset.range u.length, phi j A (u.getD j 0) := by
  have hlip : ∀ t ∈ Set.Ico (0 : ℝ) 1, LipschitzOnWith ‖A‖₊ (field A u t) (Set.univ : Set V) := by
    intro t _
    refine LipschitzOnWith.of_dist_le_mul fun x _ z _ => ?_
    simp only [field, dist_add_right]
    exact A.lipschitz.dist_le_mul x z
  have hz : ∀ t, HasDerivAt (fun s => phiSum (u.length - 1) A (fun j => u.getD j 0) s)
      (field A u t (phiSum (u.length - 1) A (fun j => u.getD j 0) t)) t := fun t => (C70_equation A u hu t).1
  have := ODE_solution_unique_of_mem_Icc_right (v := fun t x => field A u t x) (s := fun _ => Set.univ) hlip hcont hy (fun _ _ => trivial)
    (fun t _ => (hz t).continuousAt.continuousWithinAt) (fun t _ => (hz t).hasDerivWithinAt) (fun _ _ => trivial)
    (hy0.trans (C70_equation A u hu 0).2.symm)
  have h1 := this (Set.right_mem_Icc.mpr zero_le_one)
  rw [h1]
  unfold phiSum
  simp only [one_pow, one_smul]
  congr 2
  omega

end Exact

section Run
variable {V : Type*} [AddCommGroup V] [Module ℝ V]

/-- a stored first step that the next call accepts -/
def Usable (tauOut : ℝ) (m : Memory) : Prop := ∃ h, firstStep tauOut m = some h ∧ 0 < h ∧ h ≤ 1

theorem mem_sorted {l : List ℝ} {x : ℝ} (h : x ∈ l.mergeSort (fun a b => decide (a ≤ b))) : x ∈ l :=
  (List.mergeSort_perm l _).mem_iff.mp h

/-- the median of numbers in (0, 1] is in (0, 1] -/
theorem median_range {l : List ℝ} (hl : l ≠ []) (h : ∀ x ∈ l, 0 < x ∧ x ≤ 1) : ∃ m, median l = some m ∧ 0 < m ∧ m ≤ 1 := by
  classical
  have hlen : 0 < l.length := List.length_pos_iff.mpr hl
  have hs : (l.mergeSort (fun a b => decide (a ≤ b))).length = l.length := List.length_mergeSort _
  have hget : ∀ i < l.length, 0 < (l.mergeSort (fun a b => decide (a ≤ b))).getD i 0 ∧ (l.mergeSort (fun a b => decide (a ≤ b))).getD i 0 ≤ 1 := by
    intro i hi
    rw [List.getD_eq_getElem _ _ (by rw [hs]; exact hi)]
    exact h _ (mem_sorted (List.getElem_mem _))
  unfold median
  simp only [if_neg hl]
  split
  · exact ⟨_, rfl, hget _ (by omega)⟩
  · rename_i hodd
    have h1 := hget (l.length / 2 - 1) (by omega)
    have h2 := hget (l.length / 2) (by omega)
    refine ⟨_, rfl, ?_, ?_⟩ <;> linarith [h1.1, h1.2, h2.1, h2.2]

theorem loop_steps {p : Problem V} {s s' : Solver V} {ts : List ℝ} (h : Loop p s ts s') :
    (∀ n s0, Steps p n s0 s → ∃ m, Steps p m s0 s') ∧ s'.status ≠ .running := by
  induction h with
  | finished hn hf => exact ⟨fun n s0 hs => ⟨n + 1, .succ hs hn⟩, by rw [hf]; simp⟩
  | failed hn hf => exact ⟨fun n s0 hs => ⟨n + 1, .succ hs hn⟩, by rw [hf]; simp⟩
  | more hn hr _ ih => exact ⟨fun n s0 hs => ih.1 (n + 1) s0 (.succ hs hn), ih.2⟩

/-- the accepted times of a loop increase and end at the time of the final solver -/
theorem loop_times {p : Problem V} (g : Good p) (hmax : p.maxStep = none) {s s' : Solver V} {ts : List ℝ} (h : Loop p s ts s') (r : Ready p s) :
    (∀ x ∈ diffs (s.t :: ts), 0 < x) ∧ (diffs (s.t :: ts)).sum = s'.t - s.t ∧ (s'.status = .finished → ts ≠ []) := by
  induction h with
  | finished hn hf =>
    rename_i s s'
    obtain ⟨x, hx, hx'⟩ := C27_step g r (by simp [hmax])
    have := next_unique hn hx
    subst this
    rcases hx' with a | f
    · have := a.advances
      simp [diffs]
      linarith
    · rw [f.status] at hf; cases hf
  | failed hn hf =>
    rename_i s s'
    obtain ⟨x, hx, hx'⟩ := C27_step g r (by simp [hmax])
    have := next_unique hn hx
    subst this
    rcases hx' with a | f
    · rcases lt_or_eq_of_le a.bound with h' | h'
      · rw [a.running.mpr h'] at hf; cases hf
      · rw [a.finished.mpr h'] at hf; cases hf
    · simp [diffs, f.t, hf]
  | more hn hr hl ih =>
    rename_i s s' ts s''
    obtain ⟨x, hx, hx'⟩ := C27_step g r (by simp [hmax])
    have := next_unique hn hx
    subst this
    rcases hx' with a | f
    · have hr' : Ready p s' := by
        refine ⟨hr, a.running.mp hr, ?_, a.old⟩
        have := a.lower
        have := a.advances
        have := arctan_half_lt
        have : 0 < (1 - 2 * Real.arctan (1 / 2)) * (s'.t - s.t) := mul_pos (by linarith) (by linarith)
        linarith
      obtain ⟨i1, i2, _⟩ := ih hr'
      have e : diffs (s.t :: s'.t :: ts) = (s'.t - s.t) :: diffs (s'.t :: ts) := by simp [diffs]
      rw [e]
      refine ⟨?_, ?_, fun _ => by simp⟩
      · intro x hx
        rcases List.mem_cons.mp hx with rfl | hx
        · have := a.advances; linarith
        · exact i1 x hx
      · rw [List.sum_cons, i2]; ring
    · rw [f.status] at hr; cases hr

theorem loop_exists {p : Problem V} {n : Nat} {s s' : Solver V} (h : Steps p n s s') (hs : s.status = .running) (hs' : s'.status ≠ .running) :
    ∃ ts, Loop p s ts s' := by
  have key : ∀ (m : Nat) (a b : Solver V), Steps p m a b → ∀ ts c, Loop p b ts c → b.status = .running → ∃ ts', Loop p a ts' c := by
    intro m a b hab
    induction hab with
    | zero => intro ts c hl _; exact ⟨ts, hl⟩
    | succ h1 h2 ih =>
      intro ts c hl hb
      exact ih _ c (.more h2 hb hl) (next_running h2)
  cases h with
  | zero => exact absurd hs hs'
  | succ h1 h2 =>
    cases hst : s'.status with
    | running => exact absurd hst hs'
    | finished => exact key _ _ _ h1 _ _ (.finished h2 hst) (next_running h2)
    | failed => exact key _ _ _ h1 _ _ (.failed h2 hst) (next_running h2)

theorem le_sum_of_pos {l : List ℝ} (h : ∀ x ∈ l, 0 < x) : 0 ≤ l.sum ∧ ∀ x ∈ l, x ≤ l.sum := by
  induction l with
  | nil => simp
  | cons a l ih =>
    have hi := ih fun x hx => h x (List.mem_cons_of_mem _ hx)
    have ha := h a List.mem_cons_self
    rw [List.sum_cons]
    refine ⟨by linarith [hi.1], fun x hx => ?_⟩
    rcases List.mem_cons.mp hx with rfl | hx
    · linarith [hi.1]
    · linarith [hi.2 x hx]

/-- **C70 (calls).**  With a usable first step a call always ends with a vector: either the integration reached time 1 exactly — whatever the
requested time is — and then the stored first step is usable for the next call, or the integration failed. -/
theorem C70_call {base : Problem V} (g : Good base) (hmax : base.maxStep = none) (A : V → V) (u : List V) (tauOut : ℝ) (mem : Memory)
    (hm : Usable tauOut mem) :
    ∃ h s0 ts s, firstStep tauOut mem = some h ∧ construct (problem base A u) 0 (u.getD 0 0) h = some s0 ∧ Loop (problem base A u) s0 ts s ∧
      Call base A u tauOut mem s.y (remember ts) ∧
      ((s.status = .finished ∧ s.t = 1 ∧ ∀ tau, Usable tau (remember ts)) ∨ s.status = .failed) := by
  obtain ⟨h, hf, h0, h1⟩ := hm
  have g' : Good (problem base A u) := ⟨g.a, g.b, g.safety0, g.safety1, g.safetySc, g.norm⟩
  obtain ⟨s0, hs0⟩ : ∃ s0, construct (problem base A u) 0 (u.getD 0 0) h = some s0 := by
    unfold construct
    rw [if_neg (not_le.mpr h0), if_neg]
    · exact ⟨_, rfl⟩
    · simp [problem]; exact h1
  have hs0' : s0.status = .running ∧ s0.t = 0 := by
    unfold construct at hs0
    split_ifs at hs0
    simp only [Option.some.injEq] at hs0
    subst hs0
    exact ⟨rfl, rfl⟩
  have ht : (0 : ℝ) < (problem base A u).tBound := by simp [problem]
  obtain ⟨n, s, _, hst, hns⟩ := C27_ends g' hmax ht hs0
  obtain ⟨ts, hl⟩ := loop_exists hst hs0'.1 hns
  have r0 := ((steps_inv g' hmax ht hs0 (Steps.zero s0)).1 hs0'.1).1
  have htimes := loop_times g' hmax hl r0
  refine ⟨h, s0, ts, s, hf, hs0, hl, .run hf hs0 hl, ?_⟩
  cases hstat : s.status with
  | running => exact absurd hstat hns
  | failed => exact Or.inr rfl
  | finished =>
    have h1' : s.t = 1 := (steps_inv g' hmax ht hs0 hst).2.2.2 hstat
    refine Or.inl ⟨rfl, h1', fun tau => ?_⟩
    rw [hs0'.2] at htimes
    have hsum : (diffs (0 :: ts)).sum = 1 := by rw [htimes.2.1, h1']; ring
    have hne : diffs (0 :: ts) ≠ [] := by
      intro h0; rw [h0] at hsum; simp at hsum
    have hb := le_sum_of_pos htimes.1
    obtain ⟨m, hm1, hm2, hm3⟩ := median_range hne fun x hx => ⟨htimes.1 x hx, hsum ▸ hb.2 x hx⟩
    refine ⟨m, ?_, hm2, hm3⟩
    unfold remember
    rw [hm1]
    rfl

/-- What a call remembers: half the sum of the two middle ones (of the middle one with itself, if their number is odd) of the accepted steps in
increasing order. -/
theorem C70_remembered (ts : List ℝ) (h : ts ≠ []) : ∃ (s : List ℝ) (h : ℝ), s.Perm (diffs (0 :: ts)) ∧ s.Pairwise (· ≤ ·) ∧ s.length = ts.length ∧
    remember ts = .value h ∧ 2 * h = s.getD ((ts.length - 1) / 2) 0 + s.getD (ts.length / 2) 0 := by
  classical
  have hlen : (diffs (0 :: ts)).length = ts.length := by simp [diffs]
  have hpos : 0 < ts.length := List.length_pos_iff.mpr h
  have hne : diffs (0 :: ts) ≠ [] := by
    intro h0; rw [h0] at hlen; simp at hlen; omega
  refine ⟨(diffs (0 :: ts)).mergeSort (fun a b => decide (a ≤ b)), _, List.mergeSort_perm _ _, ?_, by rw [List.length_mergeSort, hlen],
    by unfold remember median; simp only [if_neg hne, hlen]; rw [← apply_ite some], ?_⟩
  · have := List.pairwise_mergeSort (le := fun a b : ℝ => decide (a ≤ b)) (by simpa using fun a b c h1 h2 => le_trans h1 h2)
      (by simpa using fun a b => le_total a b) (diffs (0 :: ts))
    simpa using this
  · split_ifs with hodd
    · rw [show (ts.length - 1) / 2 = ts.length / 2 by omega]; ring
    · rw [show (ts.length - 1) / 2 = ts.length / 2 - 1 by omega]; ring

/-- three accepted steps, at 1/2, 3/4 and 1 -/
example : ([1 / 2, 3 / 4, 1] : List ℝ) ≠ [] := by simp

/-- The very first call has a usable first step exactly when the requested time is in (0, 1]; a requested time above 1 makes the constructor
raise. -/
theorem C70_first_call (base : Problem V) (A : V → V) (u : List V) (tauOut : ℝ) :
    (Usable tauOut .unset ↔ 0 < tauOut ∧ tauOut ≤ 1) ∧
    (1 < tauOut → construct (problem base A u) 0 (u.getD 0 0) tauOut = none) := by
  constructor
  · constructor
    · rintro ⟨h, hh, h0, h1⟩
      simp only [firstStep, Option.some.injEq] at hh
      subst hh
      exact ⟨h0, h1⟩
    · rintro ⟨h0, h1⟩
      exact ⟨tauOut, rfl, h0, h1⟩
  · intro h
    unfold construct
    rw [if_neg (by linarith), if_pos (by simp [problem]; exact h)]

/-! ## What fails -/

/-- The error of every step is infinite: the integration fails at once and the call returns the first vector as if it were the answer. -/
noncomputable def overflowing : Problem ℝ where
  nStages := 1
  A := fun _ _ => 0
  B := fun _ => 1
  C := fun _ => 0
  E := fun _ => 0
  errOrder := 1
  f := fun _ _ => 0
  errNorm := fun _ _ _ => .bad
  tBound := 1
  maxStep := none
  hMinA := 0
  hMinB := 1 / 10 ^ 6
  control := { minbeta1 := -1, minbeta2 := 0, minalpha := 0, safety := 9 / 10, safetySc := 9 / 10 }

theorem overflowing_good : Good overflowing :=
  ⟨le_rfl, by norm_num [overflowing], by norm_num [overflowing], by norm_num [overflowing], by norm_num [overflowing],
    fun _ _ _ _ h => by simp [overflowing] at h⟩

theorem overflowing_next (A : ℝ → ℝ) (u : List ℝ) (y k : ℝ) :
    Next (problem overflowing A u) ⟨0, y, k, 1, none, true, .running⟩ ⟨0, y, k, 1, none, true, .failed⟩ := by
  refine ⟨1, fun n hn => ?_⟩
  obtain ⟨n, rfl⟩ : ∃ m, n = m + 1 := ⟨n - 1, by omega⟩
  have hr : reassess (problem overflowing A u) ⟨0, y, k, 1, none, true, .running⟩ = (1, 1 / 10 ^ 6, true) := by
    unfold reassess
    norm_num [problem, overflowing]
  unfold step
  simp only [ne_eq, not_true_eq_false, if_false]
  rw [if_neg (by simp [problem]), hr]
  have : attempt (problem overflowing A u) ⟨0, y, k, 1, none, true, .running⟩ true 1 (1 / 10 ^ 6) (n + 1) false 1 = .fail := by
    rw [attempt, if_neg (by norm_num)]
    simp [errorOf, problem, overflowing]
  rw [this]

/-- **C70 fails (failure is silent).**  When the integration fails the call returns the vector reached so far, here the first one, with nothing
that tells it from an answer; the right answer of this call is 2. -/
theorem C70_failure_fails : Call overflowing (fun _ => 0) [1, 1] 1 .unset (1 : ℝ) .nan ∧
    ∑ j ∈ Finset.range 2, phi j (0 : ℝ →L[ℝ] ℝ) (([1, 1] : List ℝ).getD j 0) = 2 := by
  constructor
  · have hc : construct (problem overflowing (fun _ => (0 : ℝ)) [1, 1]) 0 (([1, 1] : List ℝ).getD 0 0) 1
        = some ⟨0, 1, (problem overflowing (fun _ => (0 : ℝ)) [1, 1]).f 0 1, 1, none, true, .running⟩ := by
      unfold construct
      rw [if_neg (by norm_num), if_neg (by simp [problem])]
      rfl
    have := Call.run (base := overflowing) (A := fun _ => (0 : ℝ)) (u := [1, 1]) (tauOut := 1) (mem := .unset) rfl hc
      (Loop.failed (overflowing_next _ _ _ _) rfl)
    have hm : remember [] = .nan := by
      simp [remember, diffs, median]
    rw [hm] at this
    exact this
  · have h0 : phi 0 (0 : ℝ →L[ℝ] ℝ) = 1 := by
      unfold phi
      rw [tsum_eq_single 0]
      · simp
      · intro n hn; simp [hn]
    have h1 : phi 1 (0 : ℝ →L[ℝ] ℝ) = 1 := by
      unfold phi
      rw [tsum_eq_single 0]
      · simp
      · intro n hn; simp [hn]
    simp [Finset.sum_range_succ, h0, h1]
    norm_num

/-- **C70 fails (history).**  After a call that failed at its first step the stored first step is `nan`, and from then on every call, with any
operator, vectors, method and requested time, returns its first vector unchanged and leaves `nan` again. -/
theorem C70_sticky_fails (base : Problem V) (A : V → V) (u : List V) (tauOut : ℝ) (y : V) (mem : Memory) :
    Call base A u tauOut .nan y mem ↔ y = u.getD 0 0 ∧ mem = .nan := by
  have hm : remember [] = .nan := by simp [remember, diffs, median]
  constructor
  · intro h
    generalize hn : Memory.nan = m at h
    cases h with
    | run hf _ _ => subst hn; simp [firstStep] at hf
    | nan => exact ⟨rfl, hm⟩
  · rintro ⟨rfl, rfl⟩
    have := Call.nan (base := base) (A := A) (u := u) (tauOut := tauOut)
    rwa [hm] at this

/-- A single vector is refused unless the vectors have length 1. -/
theorem C70_single_vector_fails (n : Nat) (v : V) : prepare n [v] = if n = 1 then some [v, 0] else none := by
  simp [prepare]

/-- The default value of the argument `method`, already in upper case, is not the name of a method. -/
theorem C70_default_method_fails : methods.lookup "ARK3(2)4L[2]SA-ERK" = none := by
  rfl

/-! ## The hypotheses are met -/

example : Good overflowing ∧ overflowing.maxStep = none ∧ Usable (1 : ℝ) .unset :=
  ⟨overflowing_good, rfl, 1, rfl, one_pos, le_rfl⟩

/-- The Euler method of `witness` integrates `y' = 1` and gives the sum of the two vectors. -/
example : ∃ y mem, Call witness (fun _ => (0 : ℝ)) [2, 1] 1 .unset y mem :=
  let ⟨_, _, _, _, _, _, _, h, _⟩ := C70_call witness_good rfl (fun _ => (0 : ℝ)) [2, 1] 1 .unset ⟨1, rfl, one_pos, le_rfl⟩
  ⟨_, _, h⟩

end Run

end WxVerif.Props.Exode
