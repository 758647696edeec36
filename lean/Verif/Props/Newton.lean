import Verif.Spec.Newton
import Mathlib.Tactic.Linarith
import Mathlib.Tactic.NormNum
import Mathlib.Tactic.Positivity
import Mathlib.Tactic.Ring
import Mathlib.Tactic.Abel
import Mathlib.Tactic.FieldSimp
import Mathlib.Data.Rat.Defs
import Mathlib.Algebra.Module.LinearMap.Defs
import Mathlib.Algebra.Order.Ring.Rat

/-!
# The Newton-Krylov solver (C54)
-/

namespace WxVerif.Props.Newton

open WxVerif.Newton

variable {K : Type*} {V : Type*} [Field K] [LinearOrder K] [IsStrictOrderedRing K] [AddCommGroup V] [Module K V]

/-! ## Line search -/

/-- the memory holds the value at its own argument -/
def MemoOk (F : V → V) (norm : V → K) (x dx : V) (m : Memo K V) : Prop :=
  m.Fx = F (x + m.s • dx) ∧ m.phi = norm (F (x + m.s • dx)) ^ 2

theorem phi_spec (F : V → V) (norm : V → K) (x dx : V) (m : Memo K V) (h : MemoOk F norm x dx m) (s : K) (store : Bool) :
    (phi F norm x dx m s store).1 = norm (F (x + s • dx)) ^ 2 ∧ MemoOk F norm x dx (phi F norm x dx m s store).2 := by
  unfold phi
  by_cases hs : s = m.s
  · rw [if_pos hs]
    subst hs; exact ⟨h.2, h⟩
  · rw [if_neg hs]
    cases store
    · exact ⟨rfl, h⟩
    · exact ⟨rfl, rfl, rfl⟩

theorem runSearch_spec (F : V → V) (norm : V → K) (x dx : V) (q : Search K) :
    ∀ m, MemoOk F norm x dx m → MemoOk F norm x dx (runSearch F norm x dx q m).2 := by
  induction q with
  | done s => intro m h; exact h
  | ask s store next ih => intro m h; exact ih _ _ (phi_spec F norm x dx m h s store).2

/-- **C54**: every value the line search's memory hands to the search is the value of the objective there, and the
    point, function value and norm it returns belong together, whatever points the search looks at. -/
theorem C54_line_search (F : V → V) (norm : V → K) (search : K → Search K) (x Fx dx : V) (hF : Fx = F x) :
    (∃ s : K, (lineSearch F norm search x Fx dx).1 = x + s • dx) ∧
    (lineSearch F norm search x Fx dx).2.1 = F (lineSearch F norm search x Fx dx).1 ∧
    (lineSearch F norm search x Fx dx).2.2 = norm (F (lineSearch F norm search x Fx dx).1) := by
  have h0 : MemoOk F norm x dx ⟨0, Fx, norm Fx ^ 2⟩ := by
    refine ⟨?_, ?_⟩ <;> simp [hF]
  have h1 := runSearch_spec F norm x dx (search (norm Fx ^ 2)) _ h0
  have h2 : (lineSearch F norm search x Fx dx).2.1 = F (lineSearch F norm search x Fx dx).1 := by
    simp only [lineSearch]
    split_ifs with hs
    · rw [hs]; exact h1.1
    · rfl
  refine ⟨⟨_, rfl⟩, h2, ?_⟩
  rw [← h2]
  rfl

theorem C54_objective (F : V → V) (norm : V → K) (x dx : V) (m : Memo K V)
    (h : m.Fx = F (x + m.s • dx) ∧ m.phi = norm (F (x + m.s • dx)) ^ 2) (s : K) (store : Bool) :
    (phi F norm x dx m s store).1 = norm (F (x + s • dx)) ^ 2 := (phi_spec F norm x dx m h s store).1

/-! ## The loop -/

/-- invariant of the loop -/
structure Inv (p : Solver K V) (st : State K V) : Prop where
  F : st.Fx = p.F st.x
  n : st.FxNorm = p.norm (p.F st.x)
  e0 : 0 ≤ st.eta
  e1 : st.eta ≤ 9999 / 10000

theorem forcing_range (eta old new : K) :
    0 ≤ forcing eta old new ∧ forcing eta old new ≤ 9999 / 10000 := by
  unfold forcing
  have hA : 0 ≤ 9 / 10 * new ^ 2 / old ^ 2 := by positivity
  split_ifs with h1 h2
  · constructor <;> norm_num
  · exact ⟨le_min (by norm_num) hA, min_le_left _ _⟩
  · exact ⟨le_min (by norm_num) (le_trans hA (le_max_left _ _)), min_le_left _ _⟩

theorem newPoint_spec (p : Solver K V) (x dx : V) :
    (∃ s : K, (newPoint p x (p.F x) dx).1 = x + s • dx ∧ (p.search = none → s = 1)) ∧
    (newPoint p x (p.F x) dx).2.1 = p.F (newPoint p x (p.F x) dx).1 ∧
    (newPoint p x (p.F x) dx).2.2 = p.norm (p.F (newPoint p x (p.F x) dx).1) := by
  unfold newPoint
  cases hs : p.search with
  | none => exact ⟨⟨1, by simp, fun _ => rfl⟩, rfl, rfl⟩
  | some search =>
    obtain ⟨⟨s, h1⟩, h2⟩ := C54_line_search p.F p.norm search x (p.F x) dx rfl
    exact ⟨⟨s, h1, by simp⟩, h2⟩

theorem update_spec (p : Solver K V) (hn : ∀ v, 0 ≤ p.norm v) (st : State K V) (h : Inv p st) :
    Inv p (update p st) ∧ NewtonStep p st.x (update p st).x ∧ (∃ b, (update p st).dxNorm = .fin b) ∧
      (update p st).residuals = st.residuals := by
  have hp := newPoint_spec p st.x (-p.solve st.x st.Fx (innerTol st.eta st.FxNorm))
  rw [← h.F] at hp
  refine ⟨⟨?_, ?_, ?_, ?_⟩, ?_, ⟨_, rfl⟩, rfl⟩
  · exact hp.2.1
  · exact hp.2.2
  · exact (forcing_range _ _ _).1
  · exact (forcing_range _ _ _).2
  · obtain ⟨s, hs, hs1⟩ := hp.1
    refine ⟨s, innerTol st.eta st.FxNorm, ?_, ?_, ?_, hs1⟩
    · have : 0 ≤ st.FxNorm := by rw [h.n]; exact hn _
      exact le_min h.e0 (mul_nonneg h.e0 this)
    · exact le_trans (min_le_left _ _) h.e1
    · rw [← h.F]; exact hs

theorem path_append (p : Solver K V) (xs : List V) (x y : V) (h : Path p (xs ++ [x])) (hs : NewtonStep p x y) :
    Path p (xs ++ [x] ++ [y]) := by
  induction xs with
  | nil => exact ⟨hs, trivial⟩
  | cons a xs ih =>
    cases xs with
    | nil => exact ⟨h.1, ih h.2⟩
    | cons b xs => exact ⟨h.1, ih h.2⟩

/-- the loop from a state that was reached along `xs` (before its last point) -/
theorem loop_spec (p : Solver K V) (hn : ∀ v, 0 ≤ p.norm v) : ∀ (n it : Nat) (st : State K V) (xs : List V),
    Inv p st → Path p (xs ++ [st.x]) → st.residuals = xs.map (fun x => p.normInf (p.F x)) → it = xs.length →
    ∃ ys, Path p (xs ++ st.x :: ys) ∧ (loop p n it st).1.x ∈ (st.x :: ys).getLast? ∧
      (((loop p n it st).2.2 = true ∧ ys.length + 1 ≤ n ∧ (loop p n it st).2.1 = it + ys.length + 1 ∧
        (loop p n it st).1.residuals = (xs ++ st.x :: ys).map (fun x => p.normInf (p.F x)) ∧
        p.normInf (p.F (loop p n it st).1.x) ≤ p.tol.fTol ∧ (st.dxNorm = .inf → p.tol.xRtol = .inf ∨
          (∃ b, p.tol.xRtol = .fin b ∧ 0 ≤ b) → 1 ≤ ys.length)) ∨
       ((loop p n it st).2.2 = false ∧ ys.length = n ∧ (loop p n it st).2.1 = it + n ∧
        (loop p n it st).1.residuals = ((xs ++ st.x :: ys).map (fun x => p.normInf (p.F x))).take (it + n))) := by
  intro n
  induction n with
  | zero =>
    intro it st xs hi hp hr hit
    refine ⟨[], hp, by simp [loop], Or.inr ⟨rfl, rfl, rfl, ?_⟩⟩
    simp [loop, hr, hit]
  | succ n ih =>
    intro it st xs hi hp hr hit
    have ho : Inv p (observe p st) := ⟨hi.F, hi.n, hi.e0, hi.e1⟩
    have hor : (observe p st).residuals = (xs ++ [st.x]).map (fun x => p.normInf (p.F x)) := by
      rw [List.map_append, ← hr]
      change st.residuals ++ [p.normInf st.Fx] = _
      rw [hi.F]; rfl
    rw [loop]
    split_ifs with ht
    · refine ⟨[], hp, by simp [observe], Or.inl ⟨rfl, by simp, rfl, hor, ?_, ?_⟩⟩
      · simp only [test, terminated, Bool.and_eq_true] at ht
        have h1 : p.normInf st.Fx ≤ p.tol.fTol := of_decide_eq_true ht.1.1
        rw [hi.F] at h1
        exact h1
      · intro hd hx
        exfalso
        simp only [test, terminated, Bool.and_eq_true] at ht
        have h1 := ht.2.2
        rw [show (observe p st).dxNorm = .inf from hd] at h1
        rcases hx with hx | ⟨b, hx, hb⟩
        · rw [hx] at h1; simp [Ext.div, Ext.le] at h1
        · rw [hx] at h1; simp [Ext.div, Ext.le, not_lt.2 hb] at h1
    · obtain ⟨h1, h2, h3, h4⟩ := update_spec p hn _ ho
      obtain ⟨ys, hy1, hy2, hy3⟩ := ih (it + 1) (update p (observe p st)) (xs ++ [st.x]) h1
        (path_append p xs st.x _ hp h2) (by rw [h4, hor]) (by simp [hit])
      refine ⟨(update p (observe p st)).x :: ys, by simpa using hy1, by simpa using hy2, ?_⟩
      rcases hy3 with ⟨a1, a2, a3, a4, a5, _⟩ | ⟨a1, a2, a3, a4⟩
      · refine Or.inl ⟨a1, by simp; omega, by rw [a3]; simp; omega, by rw [a4]; simp, a5, fun _ _ => by simp⟩
      · refine Or.inr ⟨a1, by simp [a2], by rw [a3]; omega, ?_⟩
        rw [a4, show it + 1 + n = it + (n + 1) by omega]; simp

/-- **C54**: what a call returns.  The answer is the last of a sequence of inexact Newton iterates from the first guess;
    the residuals are the norms of the function at the iterates; either the last iterate meets the tolerance and the
    reported number is the number of steps taken, or all allowed steps were taken and the reported number is one less. -/
theorem C54_answer (p : Solver K V) (hn : ∀ v, 0 ≤ p.norm v) (x0 : V) (maxiter : Nat) (a : Answer K V)
    (h : newtonKrylov p x0 maxiter = some a) :
    ∃ xs : List V, Path p (x0 :: xs) ∧ (x0 :: xs).getLast? = some a.x ∧
      a.residuals = ((x0 :: xs).map fun x => p.normInf (p.F x)).take (a.iterations + 1) ∧
      ((p.normInf (p.F a.x) ≤ p.tol.fTol ∧ a.iterations = xs.length ∧ xs.length < maxiter) ∨
        (xs.length = maxiter ∧ a.iterations + 1 = maxiter)) := by
  unfold newtonKrylov at h
  split_ifs at h with h0
  simp only [Option.some.injEq] at h
  obtain ⟨ys, hy1, hy2, hy3⟩ := loop_spec p hn maxiter 0 (start p x0) [] ⟨rfl, rfl, by simp [start], by
    simp only [start]; norm_num⟩ trivial rfl rfl
  refine ⟨ys, by simpa [start] using hy1, ?_, ?_⟩
  · rw [← h]; simpa [start] using hy2
  · rcases hy3 with ⟨a1, a2, a3, a4, a5, _⟩ | ⟨a1, a2, a3, a4⟩
    · have hi : a.iterations = ys.length := by rw [← h]; simp [a3]
      refine ⟨?_, Or.inl ⟨by rw [← h]; exact a5, hi, by omega⟩⟩
      rw [hi, List.take_of_length_le (by simp), ← h]
      simpa [start] using a4
    · have hi : a.iterations + 1 = maxiter := by rw [← h]; simp [a3]; omega
      refine ⟨?_, Or.inr ⟨a2, hi⟩⟩
      rw [hi, ← h]
      simpa [start] using a4

/-- **C54**: at least one Newton step is taken, even from an exact zero, for every non-negative relative tolerance
    (the test compares `inf / x_rtol` or `nan` in the first iteration).  A converged answer therefore has at least one
    iteration and at least two residuals. -/
theorem C54_first_step (p : Solver K V) (hn : ∀ v, 0 ≤ p.norm v) (x0 : V) (maxiter : Nat) (a : Answer K V)
    (hx : p.tol.xRtol = .inf ∨ ∃ b, p.tol.xRtol = .fin b ∧ 0 ≤ b) (h : newtonKrylov p x0 maxiter = some a) :
    ∃ x1, NewtonStep p x0 x1 ∧ (a.iterations = 0 → maxiter = 1 ∧ a.x = x1) := by
  unfold newtonKrylov at h
  split_ifs at h with h0
  simp only [Option.some.injEq] at h
  obtain ⟨ys, hy1, hy2, hy3⟩ := loop_spec p hn maxiter 0 (start p x0) [] ⟨rfl, rfl, by simp [start], by
    simp only [start]; norm_num⟩ trivial rfl rfl
  rcases hy3 with ⟨a1, a2, a3, a4, a5, a6⟩ | ⟨a1, a2, a3, a4⟩
  · have h1 := a6 rfl hx
    cases ys with
    | nil => simp at h1
    | cons y ys =>
      refine ⟨y, hy1.1, ?_⟩
      intro h2; rw [← h] at h2; simp [a3] at h2
  · cases ys with
    | nil => simp at a2; omega
    | cons y ys =>
      refine ⟨y, hy1.1, ?_⟩
      intro h2
      rw [← h] at h2
      simp only [a3] at h2
      have hm : maxiter = 1 := by omega
      have : ys = [] := by
        rw [hm] at a2
        simpa using a2
      subst this
      rw [← h]
      refine ⟨hm, ?_⟩
      simpa using hy2.symm

/-- **C54**: a call with `maxiter = 0` fails, every other call returns. -/
theorem C54_maxiter (p : Solver K V) (x0 : V) (maxiter : Nat) :
    (newtonKrylov p x0 maxiter).isNone ↔ maxiter = 0 := by
  unfold newtonKrylov
  split_ifs with h <;> simp [h]

/-- **C54**: for an affine function the Jacobian product is exact, for any positive difference step. -/
theorem C54_jacobian (norm : V → K) (hz : ∀ v, norm v = 0 → v = 0) (omega : K) (ho : omega ≠ 0) (J : V →ₗ[K] V)
    (g x0 v : V) : jacobianProduct (fun x => J x + g) norm omega x0 (J x0 + g) v = J v := by
  unfold jacobianProduct
  split_ifs with h
  · rw [hz v h]; simp
  · have : J (x0 + (omega / norm v) • v) + g - (J x0 + g) = (omega / norm v) • J v := by
      rw [map_add, map_smul]; abel
    simp only [this]
    rw [smul_smul, inv_mul_cancel₀ (div_ne_zero ho h), one_smul]

/-- **C54**, without line search: with an exact linear solver for an affine function, the answer after any positive number
    of allowed iterations is a zero of the function. -/
theorem C54_affine (p : Solver K V) (hn : ∀ v, 0 ≤ p.norm v) (hs : p.search = none) (J : V →ₗ[K] V) (g : V)
    (hF : ∀ x, p.F x = J x + g) (hsol : ∀ x b t, J (p.solve x b t) = b) (x0 : V) (maxiter : Nat) (a : Answer K V)
    (hx : p.tol.xRtol = .inf ∨ ∃ b, p.tol.xRtol = .fin b ∧ 0 ≤ b) (h : newtonKrylov p x0 maxiter = some a) :
    p.F a.x = 0 := by
  have step : ∀ x y, NewtonStep p x y → p.F y = 0 := by
    rintro x y ⟨s, t, _, _, hy, h1⟩
    rw [hy, h1 hs, one_smul, hF, map_add, map_neg, hsol, hF]
    abel
  have path : ∀ (xs : List V) (x y : V), Path p (x :: y :: xs) → ∀ z ∈ (y :: xs).getLast?, p.F z = 0 := by
    intro xs
    induction xs with
    | nil => intro x y hp z hz; simp at hz; subst hz; exact step _ _ hp.1
    | cons w xs ih => intro x y hp z hz; exact ih y w hp.2 z (by simpa using hz)
  obtain ⟨xs, h1, h2, _, h4⟩ := C54_answer p hn x0 maxiter a h
  cases xs with
  | cons y xs => exact path xs x0 y h1 a.x (by simpa using h2)
  | nil =>
    obtain ⟨x1, hx1, hx2⟩ := C54_first_step p hn x0 maxiter a hx h
    rcases h4 with ⟨_, h5, _⟩ | ⟨h5, h6⟩
    · rw [(hx2 (by simpa using h5)).2]; exact step _ _ hx1
    · simp at h5; omega

/-- the solver of the witness: `F(x) = 1` has no zero; the tolerance is `1/2` -/
def hopeless : Solver ℚ ℚ :=
  { F := fun _ => 1, norm := fun v => |v|, normInf := fun v => |v|, solve := fun _ b _ => b, search := none,
    tol := { fTol := 1 / 2 } }

theorem hopeless_answer (n : Nat) (hn : 0 < n) : ∃ a, newtonKrylov hopeless 0 n = some a ∧
    ¬ hopeless.normInf (hopeless.F a.x) ≤ hopeless.tol.fTol := by
  unfold newtonKrylov
  rw [if_neg hn.ne']
  refine ⟨_, rfl, ?_⟩
  simp only [hopeless]
  norm_num

/-- **C54** fails in one part: a solve that does not converge is reported to the simulation with the flag of success, for
    every number of allowed iterations. -/
theorem C54_failure_reported_fails (n : Nat) (hn : 0 < n) : ∃ a, newtonKrylov hopeless 0 n = some a ∧
    reportedFlag a = 0 ∧ ¬ hopeless.normInf (hopeless.F a.x) ≤ hopeless.tol.fTol := by
  obtain ⟨a, h1, h2⟩ := hopeless_answer n hn
  exact ⟨a, h1, rfl, h2⟩

/-- non-vacuity: `F(x) = 2 x - 6` from 0 converges in one step: two iterations are begun and one is reported -/
def easy : Solver ℚ ℚ :=
  { F := fun x => 2 * x - 6, norm := fun v => |v|, normInf := fun v => |v|, solve := fun _ b _ => b / 2, search := none,
    tol := { fTol := 1 / 2 } }

example : (newtonKrylov easy 0 5).map (fun a => (a.x, a.iterations, a.residuals)) = some (3, 1, [6, 0]) := by
  simp [newtonKrylov, loop, start, observe, update, newPoint, test, terminated, easy, Ext.le, Ext.div]
  norm_num

end WxVerif.Props.Newton
