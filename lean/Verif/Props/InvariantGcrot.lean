import Verif.Model.Ros2Gcrot
import Verif.Props.Gcrot
import Verif.Props.Invariants
import Mathlib.Analysis.InnerProductSpace.PiL2

/-!
# C64: Ros2 with GCROT
-/

namespace WxVerif.Props.InvariantGcrot

open WxVerif.Gcrot WxVerif.Schemes WxVerif.Props.Invariants WxVerif.Props.Gcrot

section subspace
variable {W : Type*} [NormedAddCommGroup W] [InnerProductSpace ℝ W] (U : Submodule ℝ W)

theorem comb_mem {a : List ℝ} {v : List W} (h : ∀ x ∈ v, x ∈ U) : comb a v ∈ U := by
  unfold comb
  refine U.list_sum_mem fun x hx => ?_
  induction a generalizing v with
  | nil => simp at hx
  | cons y ys ih =>
    cases v with
    | nil => simp at hx
    | cons w ws =>
      rw [List.zipWith_cons_cons, List.mem_cons] at hx
      rcases hx with rfl | hx
      · exact U.smul_mem _ (h w (by simp))
      · exact ih (fun z hz => h z (by simp [hz])) hx

theorem zip_mem {l : List (List ℝ)} {y : List ℝ} {vs : List W} (h : ∀ x ∈ vs, x ∈ U) :
    (List.zipWith (fun col yj => yj • comb col vs) l y).sum ∈ U := by
  refine U.list_sum_mem fun x hx => ?_
  induction l generalizing y with
  | nil => simp at hx
  | cons c cs ih =>
    cases y with
    | nil => simp at hx
    | cons w ws =>
      rw [List.zipWith_cons_cons, List.mem_cons] at hx
      rcases hx with rfl | hx
      · exact U.smul_mem _ (comb_mem U h)
      · exact ih hx

theorem mgs_mem : ∀ (cs : List W) (w : W), (∀ c ∈ cs, c ∈ U) → w ∈ U → (mgs cs w).2 ∈ U := by
  intro cs
  induction cs with
  | nil => intro w _ h; exact h
  | cons c cs ih =>
    intro w hc hw
    exact ih _ (fun c' h => hc c' (by simp [h])) (U.sub_mem hw (U.smul_mem _ (hc c (by simp))))

theorem arnoldi_mem {A M : W → W} (hA : ∀ v ∈ U, A v ∈ U) (hM : ∀ v ∈ U, M v ∈ U) {cs : List W} (hc : ∀ c ∈ cs, c ∈ U) {s : Basis W}
    (hv : ∀ v ∈ s.vs, v ∈ U) (hz : ∀ v ∈ s.zs, v ∈ U) :
    (∀ v ∈ (arnoldi A M cs s).1.vs, v ∈ U) ∧ ∀ v ∈ (arnoldi A M cs s).1.zs, v ∈ U := by
  have hl : s.vs.getLastD 0 ∈ U := by
    rcases List.eq_nil_or_concat s.vs with h | ⟨l, x, h⟩
    · rw [h]; exact U.zero_mem
    · rw [h] at hv ⊢
      simpa using hv x (by simp)
  have hr := mgs_mem U s.vs _ hv (mgs_mem U cs _ hc (hA _ (hM _ hl)))
  refine ⟨fun v h => ?_, fun v h => ?_⟩
  · simp only [arnoldi, List.mem_append, List.mem_singleton] at h
    rcases h with h | rfl
    · exact hv v h
    · split
      · exact hr
      · exact U.smul_mem _ hr
  · simp only [arnoldi, List.mem_append, List.mem_singleton] at h
    rcases h with h | rfl
    · exact hz v h
    · exact hM _ hl

theorem arnoldiLoop_mem (e : Ext W) {A M : W → W} (hA : ∀ v ∈ U, A v ∈ U) (hM : ∀ v ∈ U, M v ∈ U) (tol : ℝ) {cs : List W} (hc : ∀ c ∈ cs, c ∈ U) (n : Nat) :
    ∀ s : Basis W, (∀ v ∈ s.vs, v ∈ U) → (∀ v ∈ s.zs, v ∈ U) →
      (∀ v ∈ (arnoldiLoop e A M tol cs n s).vs, v ∈ U) ∧ ∀ v ∈ (arnoldiLoop e A M tol cs n s).zs, v ∈ U := by
  induction n with
  | zero => intro s h1 h2; exact ⟨h1, h2⟩
  | succ n ih =>
    intro s h1 h2
    obtain ⟨a, b⟩ := arnoldi_mem U hA hM hc h1 h2
    rw [arnoldiLoop]
    split
    · exact ⟨a, b⟩
    · exact ih _ a b

/-- the main iteration only adds vectors of the subspace -/
theorem mainLoop_mem (e : Ext W) {A M : W → W} (hA : ∀ v ∈ U, A v ∈ U) (hM : ∀ v ∈ U, M v ∈ U) (b x0 : W) (hr : ∀ x, x - x0 ∈ U → b - A x ∈ U)
    (tol : ℝ) (m k : Nat) (n : Nat) : ∀ (first : Bool) (beta : ℝ) (s : St W), s.x - x0 ∈ U → s.r ∈ U → (∀ p ∈ s.cu, p.1 ∈ U ∧ p.2 ∈ U) →
      (mainLoop e A M b tol m k n first beta s).1.x - x0 ∈ U ∧ ∀ p ∈ (mainLoop e A M b tol m k n first beta s).1.cu, p.1 ∈ U ∧ p.2 ∈ U := by
  induction n with
  | zero => intro first beta s hx _ hc; exact ⟨hx, hc⟩
  | succ n ih =>
    intro first beta s hx hs hc
    rw [mainLoop]
    dsimp only
    generalize hs' : (if ‖s.r‖ ≤ tol * ‖b‖ ∧ (first = false ∨ s.cu ≠ []) then { s with r := b - A s.x } else s) = s'
    have h1 : s'.x - x0 ∈ U ∧ s'.r ∈ U ∧ ∀ p ∈ s'.cu, p.1 ∈ U ∧ p.2 ∈ U := by
      rw [← hs']
      split
      · exact ⟨hx, hr _ hx, hc⟩
      · exact ⟨hx, hs, hc⟩
    obtain ⟨hx', hr', hc'⟩ := h1
    split
    · exact ⟨hx', hc'⟩
    · obtain ⟨o1, o2⟩ := arnoldiLoop_mem U e hA hM (tol * ‖b‖ / ‖s'.r‖) (cs := s'.cu.map (·.1))
        (fun c h => by obtain ⟨p, hp, rfl⟩ := List.mem_map.1 h; exact (hc' p hp).1) (m + (k - s'.cu.length)) ⟨[‖s'.r‖⁻¹ • s'.r], [], [], []⟩
        (fun v h => by rw [List.mem_singleton.1 h]; exact U.smul_mem _ hr') (fun v h => by simp at h)
      have hu := fun a => comb_mem U (a := a) (v := s'.cu.map (·.2)) (fun c h => by obtain ⟨p, hp, rfl⟩ := List.mem_map.1 h; exact (hc' p hp).2)
      refine ih _ _ _ ?_ ?_ ?_
      all_goals unfold outerStep; dsimp only; split
      · exact hx'
      · rw [add_sub_right_comm]
        exact U.add_mem hx' (U.smul_mem _ (U.smul_mem _ (U.sub_mem (comb_mem U o2) (hu _))))
      · exact hr'
      · exact U.sub_mem hr' (U.smul_mem _ (U.smul_mem _ (zip_mem U o1)))
      · exact hc'
      · intro p hp
        rw [List.mem_append, List.mem_singleton] at hp
        rcases hp with hp | rfl
        · exact hc' p (List.drop_subset _ _ hp)
        · exact ⟨U.smul_mem _ (zip_mem U o1), U.smul_mem _ (U.sub_mem (comb_mem U o2) (hu _))⟩

end subspace

section step
variable {W E : Type*} [NormedAddCommGroup W] [InnerProductSpace ℝ W] [AddCommGroup E] [Module ℝ E] (M : W →ₗ[ℝ] E)

/-- **C64** The first step of a run of Ros2 with GCROT, in a process without earlier calls of it, keeps every conserved linear quantity: for every tolerance,
behaviour of the library routines and number of iterations. -/
theorem C64_gcrot_first_partial (e : Ext W) (eps tol : ℝ) {rhs : W → W} (h : ∀ Q, M (rhs Q) = 0) (Q : W) (dt : ℝ) (s : List (Option W × W) × W)
    (hs : ros2Step e eps tol rhs [] Q dt = some s) : M s.2 = M Q := by
  have hA : ∀ v, M (matvecRat eps rhs Q dt v) = M v := fun v => (matvec_keeps h eps dt Q v).2
  have hb : M (matvecRat eps rhs Q dt Q + dt • rhs Q) = M Q := by rw [map_add, hA, map_smul, h, smul_zero, add_zero]
  have hk : ∀ x, x - Q ∈ LinearMap.ker M → matvecRat eps rhs Q dt Q + dt • rhs Q - matvecRat eps rhs Q dt x ∈ LinearMap.ker M := by
    intro x hx
    rw [LinearMap.mem_ker] at hx ⊢
    rw [map_sub, hb, hA, ← neg_sub, ← map_sub, hx, neg_zero]
  unfold ros2Step gcrot at hs
  split at hs
  · rename_i h0
    rw [norm_eq_zero] at h0
    cases hs
    exact hb
  · simp only [reorth, if_true, project, Option.map_eq_some_iff] at hs
    obtain ⟨a, ha, rfl⟩ := hs
    rw [if_neg (by norm_num)] at ha
    cases ha
    have := (mainLoop_mem (LinearMap.ker M) e (A := matvecRat eps rhs Q dt) (M := id)
      (fun v hv => by rw [LinearMap.mem_ker] at hv ⊢; rw [hA, hv]) (fun _ h => h) _ Q hk tol 20 20 1000 true 0
      ⟨Q, matvecRat eps rhs Q dt Q + dt • rhs Q - matvecRat eps rhs Q dt Q, [], 0⟩ (by simp) (hk Q (by simp)) (by simp)).1
    rw [LinearMap.mem_ker, map_sub, sub_eq_zero] at this
    exact this

end step

section bound
variable {W : Type*} [NormedAddCommGroup W] [InnerProductSpace ℝ W] (M : W →L[ℝ] ℝ)

/-- **C64** Any later step: if the norm that the solver reports is within its tolerance, a conserved quantity changes by no more than the tolerance allows. -/
theorem C64_gcrot_bound_partial (e : Ext W) (eps tol : ℝ) {rhs : W → W} (h : ∀ Q, M (rhs Q) = 0) (cu : List (Option W × W)) (Q : W) (dt : ℝ) (a : Answer W)
    (hs : gcrot e (matvecRat eps rhs Q dt) id 20 20 1000 cu (matvecRat eps rhs Q dt Q + dt • rhs Q) Q tol = some a)
    (hc : a.beta ≤ tol * ‖matvecRat eps rhs Q dt Q + dt • rhs Q‖) :
    |M a.x - M Q| ≤ ‖M‖ * (tol * ‖matvecRat eps rhs Q dt Q + dt • rhs Q‖) := by
  have hA : ∀ v, M (matvecRat eps rhs Q dt v) = M v := fun v => (matvec_keeps (M := M.toLinearMap) h eps dt Q v).2
  have hn := C69_solution e _ id 20 20 1000 cu _ Q tol a (by simp [matvecRat]) hs hc
  have hb : M (matvecRat eps rhs Q dt Q + dt • rhs Q - matvecRat eps rhs Q dt a.x) = M Q - M a.x := by
    rw [map_sub, map_add, hA, hA, map_smul, h, smul_zero, add_zero]
  rw [abs_sub_comm, ← hb, ← Real.norm_eq_abs]
  exact (M.le_opNorm _).trans (mul_le_mul_of_nonneg_left (hn.trans_le hc) (norm_nonneg _))

end bound

section witness

/-- a state of two cells -/
abbrev Cells := EuclideanSpace ℝ (Fin 2)

/-- the state with contents `x` and `y` -/
noncomputable def cells (x y : ℝ) : Cells := WithLp.toLp 2 ![x, y]

/-- the two cells exchange their contents -/
noncomputable def swapping (v : Cells) : Cells := cells (v 1 - v 0) (v 0 - v 1)

/-- the sum of the contents -/
noncomputable def content : Cells →ₗ[ℝ] ℝ where
  toFun v := v 0 + v 1
  map_add' u v := by simp; ring
  map_smul' a v := by simp; ring

/-- the factorization of a single column; the other routines are not reached -/
noncomputable def single : Ext Cells where
  qrp C := ([‖C.headD 0‖⁻¹ • C.headD 0], fun _ _ => ‖C.headD 0‖, fun _ => 0)
  resid _ := 1
  lsq _ := []

theorem single_spec (c : Cells) (hc : c ≠ 0) : QrSpec [c] (single.qrp [c]).1 (single.qrp [c]).2.1 (single.qrp [c]).2.2 where
  unit := by
    intro x hx
    simp only [single, List.headD_cons, List.mem_singleton] at hx
    rw [hx, norm_smul, norm_inv, norm_norm, inv_mul_cancel₀ (norm_ne_zero_iff.2 hc)]
  col := by simp [single]
  count := by simp [single]
  factor := by
    intro j hj
    have : j = 0 := by simpa [single] using hj
    subst this
    simp [single, smul_smul, mul_inv_cancel₀ (norm_ne_zero_iff.2 hc)]
  pivot := by
    intro _
    simpa [single] using hc

theorem cells_norm (x y : ℝ) : ‖cells x y‖ ^ 2 = x ^ 2 + y ^ 2 := by
  rw [EuclideanSpace.real_norm_sq_eq]
  simp [cells]

theorem cells_inner (a b c d : ℝ) : inner ℝ (cells a b) (cells c d) = a * c + b * d := by
  simp [cells, PiLp.inner_apply, Fin.sum_univ_two]
  ring

theorem cells_add (a b c d : ℝ) : cells a b + cells c d = cells (a + c) (b + d) := by
  ext i; fin_cases i <;> simp [cells]

theorem cells_sub (a b c d : ℝ) : cells a b - cells c d = cells (a - c) (b - d) := by
  ext i; fin_cases i <;> simp [cells]

theorem cells_smul (t a b : ℝ) : t • cells a b = cells (t * a) (t * b) := by
  ext i; fin_cases i <;> simp [cells]

theorem swapping_cells (a b : ℝ) : swapping (cells a b) = cells (b - a) (a - b) := by
  simp [swapping, cells]

theorem matvec_cells {eps : ℝ} (he : eps ≠ 0) (dt p q a b : ℝ) :
    matvecRat eps swapping (cells p q) dt (cells a b) = cells (a - dt / 2 * (b - a)) (b - dt / 2 * (a - b)) := by
  unfold matvecRat
  rw [cells_smul, cells_add, swapping_cells, swapping_cells, cells_sub, cells_smul, cells_smul, cells_sub]
  congr 1 <;> field_simp <;> ring

theorem mainLoop_stop {W : Type*} [NormedAddCommGroup W] [InnerProductSpace ℝ W] (e : Ext W) (A M : W → W) (b : W) (tol : ℝ) (m k n : Nat) (beta : ℝ) (s : St W)
    (h1 : ‖s.r‖ ≤ tol * ‖b‖) (h2 : ‖b - A s.x‖ ≤ tol * ‖b‖) :
    (mainLoop e A M b tol m k (n + 1) true beta s).1.x = s.x ∧ (mainLoop e A M b tol m k (n + 1) true beta s).1.cu = s.cu ∧
      (mainLoop e A M b tol m k (n + 1) true beta s).2 ≤ tol * ‖b‖ := by
  rw [mainLoop]
  dsimp only
  split <;> exact ⟨rfl, rfl, by assumption⟩

/-- The first two calls of the solver in a run of Ros2 on two cells that exchange their contents. -/
theorem calls (d tol eps : ℝ) (hd : 0 < d) (ht : 2 * d ≤ tol) (he : eps ≠ 0) :
    ros2Step single eps tol swapping [] (cells 1 0) d = some ([(none, cells 1 0)], cells 1 0) ∧
    ∃ a, gcrot single (matvecRat eps swapping (cells 1 0) d) id 20 20 1000 [(none, cells 1 0)]
        (matvecRat eps swapping (cells 1 0) d (cells 1 0) + d • swapping (cells 1 0)) (cells 1 0) tol = some a ∧
      a.beta ≤ tol * ‖matvecRat eps swapping (cells 1 0) d (cells 1 0) + d • swapping (cells 1 0)‖ ∧
      a.x = cells (1 + -(d + d ^ 2) / (1 + d + d ^ 2 / 2)) 0 := by
  set A := matvecRat eps swapping (cells 1 0) d with hA
  have hAQ : A (cells 1 0) = cells (1 + d / 2) (-(d / 2)) := by
    rw [hA, matvec_cells he]; congr 1 <;> ring
  have hr : d • swapping (cells 1 0) = cells (-d) d := by
    rw [swapping_cells, cells_smul]; congr 1 <;> ring
  have hb : A (cells 1 0) + d • swapping (cells 1 0) = cells (1 - d / 2) (d / 2) := by
    rw [hAQ, hr, cells_add]; congr 1 <;> ring
  have htol : 0 < tol := by linarith
  have hnb : ‖cells (1 - d / 2) (d / 2)‖ ^ 2 = 1 - d + d ^ 2 / 2 := by rw [cells_norm]; ring
  have hb0 : ‖cells (1 - d / 2) (d / 2)‖ ≠ 0 := fun h => by
    rw [h] at hnb; nlinarith [sq_nonneg (d - 1)]
  have le : ∀ v : Cells, ‖v‖ ^ 2 ≤ 2 * d ^ 2 → ‖v‖ ≤ tol * ‖cells (1 - d / 2) (d / 2)‖ := by
    intro v hv
    rw [← sq_le_sq₀ (norm_nonneg _) (by positivity), mul_pow, hnb]
    have h1 : (2 * d) ^ 2 ≤ tol ^ 2 := by gcongr
    nlinarith [sq_nonneg (d - 1), mul_nonneg (sq_nonneg tol) (sq_nonneg (d - 1))]
  have hrn : ‖cells (-d) d‖ ^ 2 ≤ 2 * d ^ 2 := by rw [cells_norm]; nlinarith
  -- the first step
  have step1 : ros2Step single eps tol swapping [] (cells 1 0) d = some ([(none, cells 1 0)], cells 1 0) := by
    unfold ros2Step gcrot
    rw [← hA, hb, if_neg hb0]
    simp only [reorth, if_true, project]
    rw [if_neg (by norm_num)]
    have hres : cells (1 - d / 2) (d / 2) - A (cells 1 0) = cells (-d) d := by
      rw [hAQ, cells_sub]; congr 1 <;> ring
    rw [hres]
    obtain ⟨e1, e2, -⟩ := mainLoop_stop single A id (cells (1 - d / 2) (d / 2)) tol 20 20 999 0 ⟨cells 1 0, cells (-d) d, [], 0⟩ (le _ hrn)
      (by show ‖_ - A (cells 1 0)‖ ≤ _; rw [hres]; exact le _ hrn)
    rw [Option.map_some]
    simp only [show (1000 : Nat) = 999 + 1 from rfl, e1, e2]
    rfl
  -- the second step
  have hn2 : ‖cells (1 + d / 2) (-(d / 2))‖ ^ 2 = 1 + d + d ^ 2 / 2 := by rw [cells_norm]; ring
  have hpos : 0 < 1 + d + d ^ 2 / 2 := by positivity
  have hn0 : ‖cells (1 + d / 2) (-(d / 2))‖ ≠ 0 := fun h => by
    rw [h] at hn2; nlinarith
  set n := ‖cells (1 + d / 2) (-(d / 2))‖ with hn
  set t := -(d + d ^ 2) / (1 + d + d ^ 2 / 2) with htd
  have hreo : reorth single A [(none, cells 1 0)] = [(n⁻¹ • cells (1 + d / 2) (-(d / 2)), n⁻¹ • cells 1 0)] := by
    unfold reorth
    rw [if_neg (by simp)]
    simp only [filled, List.filter_cons, List.filter_nil, Option.isNone_none, Option.isSome_none, if_true, Bool.false_eq_true, if_false, List.append_nil,
      List.map_cons, List.map_nil, Option.getD_none, hAQ, single, List.headD_cons, List.length_singleton, backSub, List.length_nil]
    rw [if_neg (by rw [not_lt]; nlinarith [abs_nonneg ‖cells (1 + d / 2) (-(d / 2))‖])]
    simp [← hn]
  have hres : cells (1 - d / 2) (d / 2) - A (cells 1 0) = cells (-d) d := by
    rw [hAQ, cells_sub]; congr 1 <;> ring
  have hyc : n⁻¹ * inner ℝ (cells (1 + d / 2) (-(d / 2))) (cells (-d) d) * n⁻¹ = t := by
    rw [cells_inner, htd, ← hn2]
    field_simp
    ring
  have hpro : project [(n⁻¹ • cells (1 + d / 2) (-(d / 2)), n⁻¹ • cells 1 0)] (cells 1 0, cells (-d) d) =
      (cells (1 + t) 0, cells (-d - t * (1 + d / 2)) (d + t * (d / 2))) := by
    simp only [project, inner_smul_left, smul_smul, RCLike.conj_to_real, hyc]
    rw [cells_smul, cells_smul, cells_add, cells_sub]
    congr 2 <;> ring
  have hx : cells (1 - d / 2) (d / 2) - A (cells (1 + t) 0) = cells (-d - t * (1 + d / 2)) (d + t * (d / 2)) := by
    rw [hA, matvec_cells he, cells_sub]; congr 1 <;> ring
  have hr2 : ‖cells (-d - t * (1 + d / 2)) (d + t * (d / 2))‖ ^ 2 ≤ 2 * d ^ 2 := by
    rw [cells_norm]
    have e : (-d - t * (1 + d / 2)) ^ 2 + (d + t * (d / 2)) ^ 2 = 2 * d ^ 2 + 2 * t * (d + d ^ 2) + t ^ 2 * (1 + d + d ^ 2 / 2) := by ring
    have e2 : t * (1 + d + d ^ 2 / 2) = -(d + d ^ 2) := by rw [htd]; field_simp
    have e3 : t ^ 2 * (1 + d + d ^ 2 / 2) = -(t * (d + d ^ 2)) := by rw [pow_two, mul_assoc, e2]; ring
    have ht0 : t * (d + d ^ 2) ≤ 0 := by
      rw [htd, div_mul_eq_mul_div]
      apply div_nonpos_of_nonpos_of_nonneg _ hpos.le
      nlinarith [sq_nonneg (d + d ^ 2)]
    rw [e, e3]; linarith
  refine ⟨step1, ?_⟩
  unfold gcrot
  rw [hb, if_neg hb0, hreo, hres]
  dsimp only
  rw [hpro, if_neg (by norm_num)]
  obtain ⟨e1, -, e3⟩ := mainLoop_stop single A id (cells (1 - d / 2) (d / 2)) tol 20 20 999 0
    ⟨cells (1 + t) 0, cells (-d - t * (1 + d / 2)) (d + t * (d / 2)), [(n⁻¹ • cells (1 + d / 2) (-(d / 2)), n⁻¹ • cells 1 0)], 0⟩ (le _ hr2)
    (by show ‖_ - A (cells (1 + t) 0)‖ ≤ _; rw [hx]; exact le _ hr2)
  exact ⟨_, rfl, e3, e1⟩

/-- **C64** fails for Ros2 with GCROT: two cells exchange their contents, one content is 1 and the other 0.  For every length `d` of the steps and every
tolerance from `2 d` on, the first step leaves the state, and the second one, which uses the solution kept by the first to improve its first guess, returns a
state with less content. -/
theorem C64_gcrot_fails : (∀ Q, content (swapping Q) = 0) ∧ ∀ d tol eps : ℝ, 0 < d → 2 * d ≤ tol → eps ≠ 0 →
    ∃ s, ros2Run single eps tol swapping (fun _ => d) (cells 1 0) 2 = some s ∧ content (cells 1 0) = 1 ∧
      content s.2 = 1 - (d + d ^ 2) / (1 + d + d ^ 2 / 2) ∧ content s.2 < 1 := by
  refine ⟨fun Q => by simp [content, swapping, cells], fun d tol eps hd ht he => ?_⟩
  obtain ⟨step1, a, ha, -, hx⟩ := calls d tol eps hd ht he
  have hpos : 0 < 1 + d + d ^ 2 / 2 := by positivity
  have e : content a.x = 1 - (d + d ^ 2) / (1 + d + d ^ 2 / 2) := by
    rw [hx]
    show (cells _ 0) 0 + (cells _ 0) 1 = _
    simp [cells]
    ring
  refine ⟨(a.kept, a.x), ?_, by simp [content, cells], e, ?_⟩
  · have step2 : ros2Step single eps tol swapping [(none, cells 1 0)] (cells 1 0) d = some (a.kept, a.x) := by
      unfold ros2Step
      rw [ha]
      rfl
    simp only [ros2Run, Option.bind_some, step1, step2]
  · show content a.x < 1
    rw [e]
    have : 0 < (d + d ^ 2) / (1 + d + d ^ 2 / 2) := by positivity
    linarith

/-- the hypotheses of `C64_gcrot_first_partial` hold of a first step -/
example : ∃ s, ros2Step single (1 / 1000) (1 / 5) swapping [] (cells 1 0) (1 / 10) = some s :=
  ⟨_, (calls (1 / 10) (1 / 5) (1 / 1000) (by norm_num) (by norm_num) (by norm_num)).1⟩

/-- and those of `C64_gcrot_bound_partial` of the second one, which changes the content -/
example (d : ℝ) (hd : d = 1 / 10) : ∃ a, gcrot single (matvecRat 1 swapping (cells 1 0) d) id 20 20 1000 [(none, cells 1 0)]
        (matvecRat 1 swapping (cells 1 0) d (cells 1 0) + d • swapping (cells 1 0)) (cells 1 0) (2 * d) = some a ∧
      a.beta ≤ 2 * d * ‖matvecRat 1 swapping (cells 1 0) d (cells 1 0) + d • swapping (cells 1 0)‖ := by
  obtain ⟨a, h1, h2, -⟩ := (calls d (2 * d) 1 (by rw [hd]; norm_num) le_rfl one_ne_zero).2
  exact ⟨a, h1, h2⟩

end witness

end WxVerif.Props.InvariantGcrot
