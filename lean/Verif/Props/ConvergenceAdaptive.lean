import Verif.Props.ConvergenceMore
import Mathlib.Analysis.Calculus.Deriv.Prod

/-!
# C90: the solver with step control converges to the exact solution
-/

namespace WxVerif.Props.Convergence

open Set BSeries SpecConvergence RootedTree WxVerif.RungeKutta WxVerif.Props.RungeKutta

universe u

variable {V : Type u} [NormedAddCommGroup V] [NormedSpace ℝ V]

/-! ## Sums over lists of stages -/

theorem combine_range (w : Nat → ℝ) (k : Nat → V) (n : Nat) :
    combineK w ((List.range n).map k) = ∑ j ∈ Finset.range n, w j • k j := by
  induction n with
  | zero => simp [combineK]
  | succ n ih =>
    rw [combineK] at ih ⊢
    rw [List.range_succ, List.map_append, List.zipIdx_append, List.map_append, List.sum_append, ih, Finset.sum_range_succ]
    simp

theorem stages_length (p : Problem V) (t h : ℝ) (y k0 : V) (i : Nat) : (stages p t h y k0 i).length = i + 1 := by
  induction i with
  | zero => rfl
  | succ i ih => simp [stages, ih]

/-- the stage `j` -/
noncomputable def stageAt (p : Problem V) (t h : ℝ) (y k0 : V) (j : Nat) : V := (stages p t h y k0 j).getD j 0

theorem stages_eq (p : Problem V) (t h : ℝ) (y k0 : V) (i : Nat) :
    stages p t h y k0 i = (List.range (i + 1)).map (stageAt p t h y k0) := by
  induction i with
  | zero => rfl
  | succ i ih =>
    rw [List.range_succ, List.map_append, ← ih]
    have : stageAt p t h y k0 (i + 1) = p.f (t + p.C (i + 1) * h) (y + h • combineK (p.A (i + 1)) (stages p t h y k0 i)) := by
      rw [stageAt, stages]
      simp only [List.getD_eq_getElem?_getD]
      rw [List.getElem?_append_right (by rw [stages_length])]
      simp [stages_length, combineK]
    simp only [List.map_cons, List.map_nil]
    rw [this]
    rfl

theorem stageAt_succ (p : Problem V) (t h : ℝ) (y k0 : V) (i : Nat) :
    stageAt p t h y k0 (i + 1) = p.f (t + p.C (i + 1) * h) (y + h • ∑ j ∈ Finset.range (i + 1), p.A (i + 1) j • stageAt p t h y k0 j) := by
  rw [← combine_range, ← stages_eq, stageAt, stages]
  simp only [List.getD_eq_getElem?_getD]
  rw [List.getElem?_append_right (by rw [stages_length])]
  simp [stages_length, combineK]

/-! ## Real and rational weights -/

theorem weightR_congr {A A' : Nat → Nat → ℝ} {s : Nat} (h : ∀ i < s, ∀ j < s, A i j = A' i j) (τ : Tree) :
    ∀ i < s, weightR A s τ i = weightR A' s τ i := by
  induction τ with
  | leaf => intro i _; rfl
  | graft a b iha ihb =>
    intro i hi
    rw [weightR, weightR, iha i hi]
    congr 1
    refine Finset.sum_congr rfl fun j hj => ?_
    have hj := Finset.mem_range.1 hj
    rw [h i hi j hj, ihb j hj]

theorem weight_cast (A : Nat → Nat → ℚ) (s : Nat) (τ : Tree) : ∀ i, weightR (fun i j => (A i j : ℝ)) s τ i = ((weight A s τ i : ℚ) : ℝ) := by
  induction τ with
  | leaf => intro i; simp [weightR, weight]
  | graft a b iha ihb =>
    intro i
    rw [weightR, weight, iha i]
    push_cast
    congr 1
    exact Finset.sum_congr rfl fun j _ => by rw [ihb j]

theorem order_cast {A : Nat → Nat → ℚ} {b : Nat → ℚ} {s p : Nat} {η : ℚ} (h : HasOrder A b s p η) :
    OrderR (fun i j => (A i j : ℝ)) (fun i => (b i : ℝ)) s p (η : ℝ) := by
  intro τ hτ
  have := h τ hτ
  have c : ∑ i ∈ Finset.range s, (b i : ℝ) * weightR (fun i j => (A i j : ℝ)) s τ i - 1 / (τ.density : ℝ) =
      ((∑ i ∈ Finset.range s, b i * weight A s τ i - 1 / (τ.density : ℚ) : ℚ) : ℝ) := by
    push_cast
    congr 1
    exact Finset.sum_congr rfl fun j _ => by rw [weight_cast]
  rw [c, ← Rat.cast_abs]
  exact_mod_cast this

/-! ## The step on the state with time -/

/-- one step from the time and state `x`, with the right derivative as the first stage -/
noncomputable def stepT (p : Problem V) (x : ℝ × V) (h : ℝ) : ℝ × V :=
  (x.1 + h, x.2 + h • combineK p.B (stages p x.1 h x.2 (p.f x.1 x.2) (p.nStages - 1)))

/-- the coefficients that the solver uses: those below the diagonal -/
noncomputable def lowA (p : Problem V) (i j : Nat) : ℝ := if j < i then p.A i j else 0

theorem sum_low (p : Problem V) (s i : Nat) (hi : i ≤ s) (k : Nat → V) :
    ∑ j ∈ Finset.range s, lowA p i j • k j = ∑ j ∈ Finset.range i, p.A i j • k j := by
  rw [← Finset.sum_subset (Finset.range_mono hi)]
  · refine Finset.sum_congr rfl fun j hj => ?_
    rw [lowA, if_pos (Finset.mem_range.1 hj)]
  · intro j _ hj
    rw [lowA, if_neg (by simpa using hj), zero_smul]

theorem sum_low' (p : Problem V) (s i : Nat) (hi : i ≤ s) : ∑ j ∈ Finset.range s, lowA p i j = ∑ j ∈ Finset.range i, p.A i j := by
  rw [← Finset.sum_subset (Finset.range_mono hi)]
  · refine Finset.sum_congr rfl fun j hj => ?_
    rw [lowA, if_pos (Finset.mem_range.1 hj)]
  · intro j _ hj
    rw [lowA, if_neg (by simpa using hj)]

/-- the runs of the step on the state with time -/
theorem stepT_within {f : ℝ → V → V} {y : ℝ → V} {T : ℝ} {q : Nat} (hq : 1 ≤ q)
    (hs : SmoothSolution (withTime f) (fun t => (t, y t)) T q) (s : Nat) (R : ℝ) :
    ∃ C δ : ℝ, 0 < δ ∧ ∀ (p : Problem V) (h : ℝ), p.f = f → p.nStages = s → (∀ i < s, ∀ j < s, |lowA p i j| ≤ R) → (∀ i < s, |p.B i| ≤ R) →
      OrderR (lowA p) p.B s q 0 → (∀ i, 1 ≤ i → i < s → p.C i = ∑ j ∈ Finset.range i, p.A i j) →
      0 < h → h ≤ δ → RunsWithin (stepT p) (fun t => (t, y t)) T h (C * h ^ q) := by
  obtain ⟨C, δ, δ0, H⟩ := explicit_within hq hs s R
  refine ⟨C, δ, δ0, ?_⟩
  intro p h hf hns hA hB hη hnode h0 hδ
  have sum1 : ∑ i ∈ Finset.range s, p.B i = 1 := by
    have := hη .leaf hq
    simp only [weightR, Tree.density, Tree.size, Tree.branchDensity] at this
    have := abs_nonpos_iff.1 this
    norm_num at this
    linarith
  have s0 : 0 < s := by
    rcases Nat.eq_zero_or_pos s with rfl | h
    · simp at sum1
    · exact h
  have := H (lowA p) p.B 0 h (stepT p) hA hB (fun i _ j _ hij => by rw [lowA, if_neg (by omega)]) hη h0 (by linarith) (by
    intro _ h' x _ h'0 _ _
    refine ⟨fun i => (1, stageAt p x.1 h' x.2 (p.f x.1 x.2) i), fun i hi => ?_, ?_⟩
    · have inc : incr s (lowA p) h' (fun i => ((1 : ℝ), stageAt p x.1 h' x.2 (p.f x.1 x.2) i)) i =
          (h' * ∑ j ∈ Finset.range i, p.A i j, h' • ∑ j ∈ Finset.range i, p.A i j • stageAt p x.1 h' x.2 (p.f x.1 x.2) j) := by
        rw [incr, ← sum_low' p s i hi.le, ← sum_low p s i hi.le]
        ext
        · simp [Prod.fst_sum]
        · simp [Prod.snd_sum]
      rw [inc, withTime]
      refine Prod.ext rfl ?_
      rcases Nat.eq_zero_or_pos i with rfl | hi0
      · simp [stageAt, stages, hf]
      · obtain ⟨i, rfl⟩ : ∃ j, i = j + 1 := ⟨i - 1, by omega⟩
        dsimp only
        rw [stageAt_succ, hf, hnode _ hi0 hi, mul_comm]
        rfl
    · rw [stepT, stages_eq, hns, Nat.sub_add_cancel s0, combine_range]
      refine Prod.ext ?_ ?_
      · simp [Prod.fst_sum, sum1]
      · simp [Prod.snd_sum])
  simpa using this

/-- the runs of the step when the right-hand side does not depend on time -/
theorem stepA_within {f : V → V} {y : ℝ → V} {T : ℝ} {q : Nat} (hq : 1 ≤ q) (hs : SmoothSolution f y T q) (s : Nat) (s0 : 0 < s) (R : ℝ) :
    ∃ C δ : ℝ, 0 < δ ∧ ∀ (p : Problem V) (η h : ℝ), (∀ t v, p.f t v = f v) → p.nStages = s → (∀ i < s, ∀ j < s, |lowA p i j| ≤ R) →
      (∀ i < s, |p.B i| ≤ R) → OrderR (lowA p) p.B s q η →
      0 < h → h + η ≤ δ → RunsWithin (fun v h => (stepT p (0, v) h).2) y T h (C * (h ^ q + η)) := by
  obtain ⟨C, δ, δ0, H⟩ := explicit_within hq hs s R
  refine ⟨C, δ, δ0, ?_⟩
  intro p η h hf hns hA hB hη h0 hδ
  refine H (lowA p) p.B η h _ hA hB (fun i _ j _ hij => by rw [lowA, if_neg (by omega)]) hη h0 hδ (by
    intro _ h' x _ h'0 _ _
    refine ⟨fun i => stageAt p 0 h' x (p.f 0 x) i, fun i hi => ?_, ?_⟩
    · rw [incr, sum_low p s i hi.le]
      rcases Nat.eq_zero_or_pos i with rfl | hi0
      · simp [stageAt, stages, hf]
      · obtain ⟨i, rfl⟩ : ∃ j, i = j + 1 := ⟨i - 1, by omega⟩
        beta_reduce
        rw [stageAt_succ, hf]
    · rw [stepT, stages_eq, hns, Nat.sub_add_cancel s0, combine_range])

/-- a right-hand side without time gives the same step at all times -/
theorem stepT_autonomous {p : Problem V} (h : ∀ t t' v, p.f t v = p.f t' v) (t dt : ℝ) (v : V) :
    (stepT p (t, v) dt).2 = (stepT p (0, v) dt).2 := by
  have : ∀ i, stages p t dt v (p.f t v) i = stages p 0 dt v (p.f 0 v) i := by
    intro i
    induction i with
    | zero => simp only [stages]; rw [h t 0]
    | succ i ih => simp only [stages]; rw [ih, h (t + _) (0 + _)]
  simp only [stepT]
  rw [this]

/-! ## Histories of the solver -/

/-- `σ` is a history of `N` successful calls of `step` of a solver constructed at the time zero in the state `y0` -/
structure History (p : Problem V) (y0 : V) (N : Nat) (σ : Nat → Solver V) : Prop where
  start : ∃ h0, construct p 0 y0 h0 = some (σ 0)
  calls : ∀ n < N, Next p (σ n) (σ (n + 1)) ∧ (σ (n + 1)).status ≠ .failed

theorem history_facts {p : Problem V} (g : Good p) (hmax : p.maxStep = none) (hb : 0 < p.tBound)
    (hc : fsal p ∨ ∀ t t' v, p.f t v = p.f t' v) {y0 : V} {N : Nat} {σ : Nat → Solver V} (hh : History p y0 N σ) :
    (σ 0).t = 0 ∧ (σ 0).y = y0 ∧ ∀ n < N, (σ n).t < (σ (n + 1)).t ∧
      (stepT p ((σ n).t, (σ n).y) ((σ (n + 1)).t - (σ n).t)) = ((σ (n + 1)).t, (σ (n + 1)).y) := by
  obtain ⟨h0, hcon⟩ := hh.start
  have init : σ 0 = ⟨0, y0, p.f 0 y0, h0, none, true, .running⟩ := by
    unfold construct at hcon
    split_ifs at hcon with c1 c2
    simp only [Option.some.injEq] at hcon
    exact hcon.symm
  have steps : ∀ n, n ≤ N → Steps p n (σ 0) (σ n) := by
    intro n
    induction n with
    | zero => intro _; exact Steps.zero _
    | succ n ih => intro hn; exact Steps.succ (ih (by omega)) (hh.calls n (by omega)).1
  have facts : ∀ n < N, Ready p (σ n) ∧ Accepted p (σ n) (σ (n + 1)) := by
    intro n hn
    obtain ⟨i1, _⟩ := steps_inv g hmax hb hcon (steps n hn.le)
    obtain ⟨r, _⟩ := i1 (next_running (hh.calls n hn).1)
    obtain ⟨x, hx, hx'⟩ := C27_step g r (by simp [hmax])
    have e := next_unique (hh.calls n hn).1 hx
    subst e
    rcases hx' with a | f
    · exact ⟨r, a⟩
    · exact absurd f.status (hh.calls n hn).2
  have k0 : ∀ n ≤ N, (σ n).k0 = p.f (σ n).t (σ n).y := by
    intro n hn
    cases n with
    | zero => rw [init]
    | succ n => exact C53_carried_derivative_partial g (facts n hn).1 (by simp [hmax]) (hh.calls n hn).1 (hh.calls n hn).2 hc
  refine ⟨by rw [init], by rw [init], fun n hn => ⟨(facts n hn).2.advances, ?_⟩⟩
  refine Prod.ext (by simp [stepT]) ?_
  rw [(facts n hn).2.state, advance, k0 n hn.le]
  rfl

/-- a finite history as a run -/
theorem history_run {W : Type*} (step : W → ℝ → W) (x : Nat → W) (dt : Nat → ℝ) (N : Nat) (h : ℝ) (h0 : 0 < h) (hdt : ∀ n < N, 0 < dt n ∧ dt n ≤ h)
    (hx : ∀ n < N, x (n + 1) = step (x n) (dt n)) : ∃ (dt' : Nat → ℝ) (Q : Nat → W), (∀ n, 0 < dt' n ∧ dt' n ≤ h) ∧ Q 0 = x 0 ∧
      (∀ n, Q (n + 1) = step (Q n) (dt' n)) ∧ (∀ n ≤ N, Q n = x n) ∧ ∀ n ≤ N, time dt' n = time dt n := by
  let dt' : Nat → ℝ := fun n => if n < N then dt n else h
  let Q : Nat → W := fun n => Nat.rec (x 0) (fun n a => step a (dt' n)) n
  refine ⟨dt', Q, fun n => ?_, rfl, fun n => rfl, fun n => ?_, fun n hn => ?_⟩
  · by_cases hn : n < N
    · simp only [dt', if_pos hn]; exact hdt n hn
    · simp only [dt', if_neg hn]; exact ⟨h0, le_rfl⟩
  · induction n with
    | zero => intro _; rfl
    | succ n ih =>
      intro hn
      have e : Q (n + 1) = step (Q n) (dt' n) := rfl
      rw [e, ih (by omega), hx n hn]
      simp only [dt', if_pos (show n < N from hn)]
  · refine Finset.sum_congr rfl fun i hi => ?_
    have := Finset.mem_range.1 hi
    simp only [dt', if_pos (show i < N by omega)]

/-- the solver works with the coefficients of the method `m` -/
structure Uses (p : Problem V) (m : Method) : Prop where
  stages : p.nStages = m.nStages
  A : ∀ i j, p.A i j = ((at1 (m.A.getD i []) j : ℚ) : ℝ)
  B : ∀ i, p.B i = ((at1 m.B i : ℚ) : ℝ)
  C : ∀ i, p.C i = ((at1 m.C i : ℚ) : ℝ)

/-- the matrix is strictly lower triangular -/
def Lower (m : Method) : Prop := ∀ i < m.nStages, ∀ j < m.nStages, i ≤ j → at1 (m.A.getD i []) j = 0

/-- a bound of the coefficients -/
def BoundedBy (m : Method) (R : ℝ) : Prop :=
  (∀ i < m.nStages, ∀ j < m.nStages, |((at1 (m.A.getD i []) j : ℚ) : ℝ)| ≤ R) ∧ ∀ i < m.nStages, |((at1 m.B i : ℚ) : ℝ)| ≤ R

theorem bounded (m : Method) : ∃ R : ℝ, BoundedBy m R := by
  refine ⟨∑ i ∈ Finset.range m.nStages, (∑ j ∈ Finset.range m.nStages, |((at1 (m.A.getD i []) j : ℚ) : ℝ)| + |((at1 m.B i : ℚ) : ℝ)|), ?_, ?_⟩
  · intro i hi j hj
    have h1 : |((at1 (m.A.getD i []) j : ℚ) : ℝ)| ≤ ∑ j ∈ Finset.range m.nStages, |((at1 (m.A.getD i []) j : ℚ) : ℝ)| :=
      Finset.single_le_sum (f := fun j => |((at1 (m.A.getD i []) j : ℚ) : ℝ)|) (fun _ _ => abs_nonneg _) (Finset.mem_range.2 hj)
    have h2 := Finset.single_le_sum (f := fun i => ∑ j ∈ Finset.range m.nStages, |((at1 (m.A.getD i []) j : ℚ) : ℝ)| + |((at1 m.B i : ℚ) : ℝ)|)
      (fun i _ => by positivity) (Finset.mem_range.2 hi)
    have := abs_nonneg ((at1 m.B i : ℚ) : ℝ)
    linarith
  · intro i hi
    have h2 := Finset.single_le_sum (f := fun i => ∑ j ∈ Finset.range m.nStages, |((at1 (m.A.getD i []) j : ℚ) : ℝ)| + |((at1 m.B i : ℚ) : ℝ)|)
      (fun i _ => by positivity) (Finset.mem_range.2 hi)
    have : 0 ≤ ∑ j ∈ Finset.range m.nStages, |((at1 (m.A.getD i []) j : ℚ) : ℝ)| := Finset.sum_nonneg fun _ _ => abs_nonneg _
    linarith

theorem low_eq {p : Problem V} {m : Method} (hu : Uses p m) (hl : Lower m) :
    ∀ i < m.nStages, ∀ j < m.nStages, lowA p i j = ((at1 (m.A.getD i []) j : ℚ) : ℝ) := by
  intro i hi j hj
  rw [lowA]
  split_ifs with h
  · exact hu.A i j
  · rw [hl i hi j hj (by omega)]; simp

theorem uses_order {p : Problem V} {m : Method} (hu : Uses p m) (hl : Lower m) {q : Nat} {η : ℚ} (h : MainOrder m q η) :
    OrderR (lowA p) p.B m.nStages q (η : ℝ) := by
  intro τ hτ
  have := order_cast h τ hτ
  refine le_trans (le_of_eq ?_) this
  congr 2
  refine Finset.sum_congr rfl fun i hi => ?_
  rw [hu.B i, weightR_congr (low_eq hu hl) τ i (Finset.mem_range.1 hi)]

/-- **C90 (step control).**  For a method with strictly lower triangular matrix, exact order conditions and exact nodes, and a right-hand
    side that may depend on time: every history of successful steps whose steps do not exceed `h` is within a multiple of `h^q` of the exact
    solution, whatever the error norms that decided about the steps. -/
theorem C90_adaptive {f : ℝ → V → V} {y : ℝ → V} {T : ℝ} {q : Nat} (hq : 1 ≤ q)
    (hs : SmoothSolution (withTime f) (fun t => (t, y t)) T q) (m : Method) (hl : Lower m) (ho : MainOrder m q 0) (hr : RowSums m 0) :
    ∃ C δ : ℝ, 0 < δ ∧ ∀ (p : Problem V), p.f = f → Uses p m → Good p → p.maxStep = none → 0 < p.tBound →
      (fsal p ∨ ∀ t t' v, f t v = f t' v) → ∀ (N : Nat) (σ : Nat → Solver V) (h : ℝ), History p (y 0) N σ → 0 < h → h ≤ δ →
        (∀ n < N, (σ (n + 1)).t - (σ n).t ≤ h) → ∀ n ≤ N, (σ n).t ≤ T → ‖(σ n).y - y (σ n).t‖ ≤ C * h ^ q := by
  obtain ⟨R, hR⟩ := bounded m
  obtain ⟨C, δ, δ0, H⟩ := stepT_within hq hs m.nStages R
  refine ⟨C, δ, δ0, ?_⟩
  intro p hf hu g hmax hb hc N σ h hh h0 hδ hdt n hn hT
  obtain ⟨i1, i2, i3⟩ := history_facts g hmax hb (by rwa [hf]) hh
  have lows := low_eq hu hl
  have R1 := H p h hf hu.stages (fun i hi j hj => by rw [lows i hi j hj]; exact hR.1 i hi j hj) (fun i hi => by rw [hu.B]; exact hR.2 i hi)
    (by simpa using uses_order hu hl ho) (by
      intro i hi his
      have := hr i his
      have e := abs_nonpos_iff.1 this
      have e : ∑ j ∈ Finset.range m.nStages, at1 (m.A.getD i []) j = at1 m.C i := by linarith
      rw [hu.C, ← e, ← sum_low' p m.nStages i his.le]
      push_cast
      exact Finset.sum_congr rfl fun j hj => (lows i his j (Finset.mem_range.1 hj)).symm) h0 hδ
  obtain ⟨dt', Q, d1, d2, d3, d4, d5⟩ := history_run (stepT p) (fun n => ((σ n).t, (σ n).y)) (fun n => (σ (n + 1)).t - (σ n).t) N h h0
    (fun n hn => ⟨by linarith [(i3 n hn).1], hdt n hn⟩) (fun n hn => (i3 n hn).2.symm)
  have tn : ∀ n ≤ N, time dt' n = (σ n).t := by
    intro n hn
    rw [d5 n hn, time, Finset.sum_range_sub (fun n => (σ n).t), i1, sub_zero]
  have := R1 dt' Q d1 (by rw [d2]; simp [i1, i2]) d3 n (by rw [tn n hn]; exact hT)
  rw [d4 n hn, tn n hn] at this
  refine le_trans ?_ this
  rw [Prod.norm_def]
  exact le_max_right _ _

/-- **C90 (step control, tables with rounded coefficients).**  When the right-hand side does not depend on time and the order conditions
    hold up to `η`, the error is at most a multiple of `h^q + η`; the multiple is the same for all methods with as many stages and
    coefficients up to `R`. -/
theorem C90_adaptive_rounded {f : V → V} {y : ℝ → V} {T : ℝ} {q : Nat} (hq : 1 ≤ q) (hs : SmoothSolution f y T q) (s : Nat) (s0 : 0 < s) (R : ℝ) :
    ∃ C δ : ℝ, 0 < δ ∧ ∀ (m : Method) (η : ℚ) (p : Problem V), m.nStages = s → Lower m → MainOrder m q η → BoundedBy m R →
      (∀ t v, p.f t v = f v) → Uses p m → Good p → p.maxStep = none → 0 < p.tBound →
      ∀ (N : Nat) (σ : Nat → Solver V) (h : ℝ), History p (y 0) N σ → 0 < h → h + η ≤ δ →
        (∀ n < N, (σ (n + 1)).t - (σ n).t ≤ h) → ∀ n ≤ N, (σ n).t ≤ T → ‖(σ n).y - y (σ n).t‖ ≤ C * (h ^ q + η) := by
  obtain ⟨C, δ, δ0, H⟩ := stepA_within hq hs s s0 R
  refine ⟨C, δ, δ0, ?_⟩
  intro m η p hm hl ho hR hf hu g hmax hb N σ h hh h0 hδ hdt n hn hT
  have aut : ∀ t t' v, p.f t v = p.f t' v := fun t t' v => by rw [hf, hf]
  obtain ⟨i1, i2, i3⟩ := history_facts g hmax hb (Or.inr aut) hh
  have lows := low_eq hu hl
  subst hm
  have R1 := H p η h hf hu.stages (fun i hi j hj => by rw [lows i hi j hj]; exact hR.1 i hi j hj) (fun i hi => by rw [hu.B]; exact hR.2 i hi)
    (uses_order hu hl ho) h0 hδ
  obtain ⟨dt', Q, d1, d2, d3, d4, d5⟩ := history_run (fun v h => (stepT p (0, v) h).2) (fun n => (σ n).y) (fun n => (σ (n + 1)).t - (σ n).t) N h h0
    (fun n hn => ⟨by linarith [(i3 n hn).1], hdt n hn⟩) (fun n hn => by
      have := congrArg Prod.snd (i3 n hn).2
      rw [stepT_autonomous aut] at this
      exact this.symm)
  have tn : ∀ n ≤ N, time dt' n = (σ n).t := by
    intro n hn
    rw [d5 n hn, time, Finset.sum_range_sub (fun n => (σ n).t), i1, sub_zero]
  have := R1 dt' Q d1 (by rw [d2]; exact i2) d3 n (by rw [tn n hn]; exact hT)
  rwa [d4 n hn, tn n hn] at this

set_option maxRecDepth 100000 in
/-- **C90 (shipped tables).**  The conditions of the two theorems hold for the tables of the code that the solver accepts. -/
theorem C90_tables :
    (∀ m ∈ [exLRK43, exLRK32, m43, bS32], Lower m ∧ MainOrder m m.order 0 ∧ RowSums m 0) ∧
    (Lower kC32 ∧ MainOrder kC32 kC32.order ((1 : Nat) / ((10 ^ 20 : Nat) : ℚ))) ∧
    (Lower f10_8 ∧ MainOrder f10_8 f10_8.order ((1 : Nat) / ((10 ^ 15 : Nat) : ℚ))) ∧
    (Lower f14_12 ∧ MainOrder f14_12 8 ((1 : Nat) / ((10 ^ 12 : Nat) : ℚ))) ∧
    Lower dP87 ∧ MainOrder dP87 7 ((1 : Nat) / ((10 ^ 14 : Nat) : ℚ)) := by
  refine ⟨?_, ⟨?_, Butcher.C28_kc32.1⟩, ⟨?_, Butcher.C28_f10.1⟩, ⟨?_, Butcher.C28_f14_partial.1⟩, ?_, Butcher.C28_dp87_partial.1⟩
  · intro m hm
    have hm' : m ∈ [exLRK43, exLRK32, m43, bS32, dP54] := by
      simp only [List.mem_cons, List.not_mem_nil, or_false] at hm ⊢
      tauto
    obtain ⟨h1, _, h3⟩ := Butcher.C28_exact m hm'
    refine ⟨?_, h1, h3⟩
    simp only [List.mem_cons, List.not_mem_nil, or_false] at hm
    rcases hm with rfl | rfl | rfl | rfl <;> unfold Lower <;> decide +kernel
  · unfold Lower; decide +kernel
  · unfold Lower; decide +kernel
  · unfold Lower; decide +kernel
  · unfold Lower; decide +kernel

/-! ## The hypotheses are met -/

/-- the method `BS32` for `y' = y²` with a smallest step `h`, no error and the default controller -/
noncomputable def bsWitness (h : ℝ) : Problem ℝ where
  nStages := 3
  A := fun i j => ((at1 (bS32.A.getD i []) j : ℚ) : ℝ)
  B := fun i => ((at1 bS32.B i : ℚ) : ℝ)
  C := fun i => ((at1 bS32.C i : ℚ) : ℝ)
  E := fun i => ((at1 bS32.Ehat i : ℚ) : ℝ)
  errOrder := 2
  f := fun _ y => y * y
  errNorm := fun _ _ _ => .fin 0
  tBound := 1
  maxStep := none
  hMinA := 0
  hMinB := h
  control := ⟨-1 / 3, 0, 0, 0.9, 0.9⟩

/-- every step size has a solver that meets the hypotheses of `C90_adaptive` and makes a step of at most this size -/
example (δ : ℝ) (δ0 : 0 < δ) : ∃ (p : Problem ℝ) (σ : Nat → Solver ℝ) (h : ℝ), p.f = (fun _ y => y * y) ∧ Uses p bS32 ∧ Good p ∧
    p.maxStep = none ∧ 0 < p.tBound ∧ fsal p ∧ History p (1 / 2) 1 σ ∧ 0 < h ∧ h ≤ δ ∧ (∀ n < 1, (σ (n + 1)).t - (σ n).t ≤ h) ∧
    0 < (σ 1).t ∧ (σ 1).t ≤ 1 := by
  set h := min δ 1 / 4 with hh
  have m0 : 0 < min δ 1 := lt_min δ0 one_pos
  have h0 : 0 < h := by rw [hh]; linarith
  have hδ : h ≤ δ := by rw [hh]; linarith [min_le_left δ 1]
  have h1 : h ≤ 1 / 4 := by rw [hh]; linarith [min_le_right δ 1]
  set p := bsWitness h with hp
  set s0 : Solver ℝ := ⟨0, 1 / 2, p.f 0 (1 / 2), h, none, true, .running⟩ with hs0
  have hre : reassess p s0 = (h, h, true) := by
    simp only [reassess, hp, bsWitness, hs0, or_false]
    rw [show max (0 * (|(0 : ℝ)| + h)) h = h by rw [zero_mul]; exact max_eq_right h0.le]
    simp only [lt_irrefl, if_false]
    rw [if_neg (by norm_num; linarith)]
  have hst : ∀ k, step p (k + 1) s0 = .ok
      { t := h, y := advance p s0 h, k0 := lastDerivative p s0 h (h * limiter 4 2), h := h * limiter 4 2, errOld := some 0,
        standardSc := true, status := .running } := by
    intro k
    have he : errorOf p s0 h = .fin 0 := by simp [errorOf, hp, bsWitness]
    have hf : acceptFactor p true 0 s0.errOld h h = some (4, true) := by
      simp [acceptFactor, hp, bsWitness, bigFactor, h0]
    have hat : attempt p s0 true h h (k + 1) false h =
        .accept h (h * limiter 4 2) (advance p s0 h) (lastDerivative p s0 h (h * limiter 4 2)) 0 true := by
      unfold attempt
      rw [he]
      simp only [hf, cap]
      norm_num
    unfold step
    simp only [hre, hat]
    have c1 : ¬ s0.t = p.tBound := by norm_num [hs0, hp, bsWitness]
    have c2 : ¬ (s0.t + h - p.tBound ≥ 0) := by
      simp only [hs0, hp, bsWitness]
      linarith
    simp only [c1, c2, ↓reduceIte]
    norm_num [hs0]
  refine ⟨p, fun n => if n = 0 then s0 else ⟨h, advance p s0 h, lastDerivative p s0 h (h * limiter 4 2), h * limiter 4 2, some 0, true, .running⟩,
    h, rfl, ⟨rfl, fun _ _ => rfl, fun _ => rfl, fun _ => rfl⟩, ⟨by norm_num [hp, bsWitness], by simpa [hp, bsWitness] using h0, by norm_num [hp, bsWitness],
      by norm_num [hp, bsWitness], by norm_num [hp, bsWitness], ?_⟩, rfl, by norm_num [hp, bsWitness], ?_, ⟨⟨h, ?_⟩, ?_⟩, h0, hδ, ?_, ?_, ?_⟩
  · intro y y' v e he
    simp only [hp, bsWitness, Err.fin.injEq] at he
    rw [← he]
  · show ((at1 bS32.Ehat 3 : ℚ) : ℝ) ≠ 0
    rw [show at1 bS32.Ehat 3 = 1 / 8 by decide +kernel]; norm_num
  · rw [construct, if_neg (by linarith), if_neg]
    · simp [hs0]
    · norm_num [hp, bsWitness]; linarith
  · intro n hn
    have : n = 0 := by omega
    subst this
    refine ⟨⟨1, fun k hk => ?_⟩, by simp⟩
    rw [show k = (k - 1) + 1 by omega]
    simpa using hst (k - 1)
  · intro n hn
    have : n = 0 := by omega
    subst this
    simp [hs0]
  · simpa using h0
  · simp; linarith

/-- `y(t) = 1/(2 − t)` solves `y' = y²` up to the time one, also with the time as part of the state -/
example : SmoothSolution (withTime (fun _ y : ℝ => y * y)) (fun t => (t, 1 / (2 - t))) 1 3 := by
  refine ⟨fun t ht => ?_, fun t _ => ?_⟩
  · have : HasDerivAt (fun t : ℝ => 1 / (2 - t)) (1 / (2 - t) * (1 / (2 - t))) t := by
      have h2 : (2 : ℝ) - t ≠ 0 := by have := ht.2; linarith
      have := ((hasDerivAt_id t).const_sub 2).inv h2
      refine (this.congr_of_eventuallyEq (Filter.Eventually.of_forall fun x => by simp)).congr_deriv ?_
      simp only [id]
      field_simp
    exact (HasDerivAt.prodMk (hasDerivAt_id t) this).hasDerivWithinAt
  · have : ContDiff ℝ 3 (withTime (fun _ y : ℝ => y * y)) := by
      unfold withTime
      fun_prop
    exact_mod_cast this.contDiffAt

/-- the solution `y(t) = 1/(2 − t)` of `y' = y²` -/
theorem square_solution (p : Nat) : SmoothSolution (fun y : ℝ => y * y) (fun t => 1 / (2 - t)) 1 p := by
  refine ⟨fun t ht => ?_, fun t _ => ?_⟩
  · have h2 : (2 : ℝ) - t ≠ 0 := by have := ht.2; linarith
    have := ((hasDerivAt_id t).const_sub 2).inv h2
    refine HasDerivAt.hasDerivWithinAt ((this.congr_of_eventuallyEq (Filter.Eventually.of_forall fun x => by simp)).congr_deriv ?_)
    simp only [id]
    field_simp
  · exact (contDiff_id.mul contDiff_id).contDiffAt

/-- there is a solver of any tolerance and radius -/
theorem solver_exists (ρ tol : ℝ) (ρ0 : 0 ≤ ρ) (tol0 : 0 ≤ tol) : ∃ newton : (V → V) → V → V, LocalSolver ρ tol newton := by
  classical
  refine ⟨fun F x0 => if h : ∃ z, ‖z - x0‖ ≤ ρ ∧ F z = 0 then h.choose else x0, fun F x0 h => ?_⟩
  simp only [dif_pos h]
  exact ⟨h.choose_spec.1, by rw [h.choose_spec.2]; simpa using tol0⟩

/-- the schemes applied to this equation -/
example : Converges (Schemes.euler1 fun y : ℝ => y * y) (fun t => 1 / (2 - t)) 1 1 ∧ Converges (Schemes.tvdrk3 fun y : ℝ => y * y) (fun t => 1 / (2 - t)) 1 3 ∧
    ConvergesWithSolver (fun newton => Schemes.crankNicolson newton fun y : ℝ => y * y) (fun t => 1 / (2 - t)) 1 2 :=
  ⟨C90_euler1 (square_solution 1), C90_tvdrk3 (square_solution 3), C90_crank_nicolson (square_solution 2)⟩

end WxVerif.Props.Convergence
