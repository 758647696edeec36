/-
C69 — the GCROT linear solver.
-/
import Mathlib.Analysis.InnerProductSpace.Basic
import Mathlib.Data.List.GetD
import Mathlib.Tactic.Linarith
import Mathlib.Tactic.Ring
import Mathlib.Tactic.Positivity
import Verif.Model.Gcrot

namespace WxVerif.Props.Gcrot

open WxVerif.Gcrot

variable {W : Type*} [NormedAddCommGroup W] [InnerProductSpace ℝ W]

/-! ## The answer below the tolerance is a solution -/

theorem mainLoop_exit (e : Ext W) (A M : W → W) (b : W) (tol : ℝ) (m k : Nat) : ∀ (n : Nat) (first : Bool) (beta : ℝ) (s : St W),
    (first = true → s.cu = [] → s.r = b - A s.x) → (n = 0 → tol * ‖b‖ < beta) →
    (mainLoop e A M b tol m k n first beta s).2 ≤ tol * ‖b‖ →
    ‖b - A (mainLoop e A M b tol m k n first beta s).1.x‖ = (mainLoop e A M b tol m k n first beta s).2 := by
  intro n
  induction n with
  | zero =>
    intro first beta s _ h0 h
    exact absurd h (not_le.mpr (h0 rfl))
  | succ n ih =>
    intro first beta s hs _ h
    rw [mainLoop] at h ⊢
    by_cases hc : ‖s.r‖ ≤ tol * ‖b‖ ∧ (first = false ∨ s.cu ≠ [])
    · simp only [if_pos hc] at h ⊢
      by_cases hb : ‖b - A s.x‖ ≤ tol * ‖b‖
      · simp only [if_pos hb]
      · simp only [if_neg hb] at h ⊢
        exact ih false _ _ (by simp) (fun _ => not_le.mp hb) h
    · simp only [if_neg hc] at h ⊢
      by_cases hb : ‖s.r‖ ≤ tol * ‖b‖
      · simp only [if_pos hb]
        have hcc : ¬ (first = false ∨ s.cu ≠ []) := fun hx => hc ⟨hb, hx⟩
        have h1 : first = true := by
          cases first
          · exact absurd (Or.inl rfl) hcc
          · rfl
        have h2 : s.cu = [] := by
          by_contra hx; exact hcc (Or.inr hx)
        rw [hs h1 h2]
      · simp only [if_neg hb] at h ⊢
        exact ih false _ _ (by simp) (fun _ => not_le.mp hb) h

/-- **C69 (solution).**  For every operator, linear or not, every preconditioner, every behaviour of the QR and least-squares routines and
whatever earlier calls left behind: if the reported residual norm is within the tolerance, it is the norm of the residual of the returned
vector. -/
theorem C69_solution (e : Ext W) (A M : W → W) (m k maxiter : Nat) (cu : List (Option W × W)) (b x0 : W) (tol : ℝ) (a : Answer W)
    (hA : A 0 = 0) (h : gcrot e A M m k maxiter cu b x0 tol = some a) (hb : a.beta ≤ tol * ‖b‖) :
    ‖b - A a.x‖ = a.beta := by
  unfold gcrot at h
  by_cases h0 : ‖b‖ = 0
  · rw [if_pos h0, Option.some.injEq] at h
    subst h
    have : b = 0 := norm_eq_zero.mp h0
    simp [this, hA]
  · rw [if_neg h0] at h
    by_cases hm : maxiter = 0
    · simp [hm] at h
    · simp only [hm, if_false, Option.some.injEq] at h
      subst h
      refine mainLoop_exit e A M b tol m k maxiter true 0 _ ?_ (fun hx => absurd hx hm) hb
      intro _ hcu
      have hcu' : reorth e A cu = [] := hcu
      show (project (reorth e A cu) (x0, b - A x0)).2 = b - A (project (reorth e A cu) (x0, b - A x0)).1
      rw [hcu']
      rfl

/-! ## The invariant -/

/-- every stored image is the image of the stored vector -/
def Consistent (A : W → W) (cu : List (W × W)) : Prop := ∀ p ∈ cu, p.1 = A p.2 ∧ ‖p.1‖ = 1

theorem mgs_comb : ∀ (cs : List W) (w : W), w = comb (mgs cs w).1 cs + (mgs cs w).2 := by
  intro cs
  induction cs with
  | nil => intro w; simp [mgs, comb]
  | cons c cs ih =>
    intro w
    have := ih (w - (inner ℝ c w : ℝ) • c)
    simp only [mgs, comb, List.zipWith_cons_cons, List.sum_cons] at this ⊢
    rw [add_assoc, ← this]
    abel

theorem mgs_length : ∀ (cs : List W) (w : W), (mgs cs w).1.length = cs.length := by
  intro cs
  induction cs with
  | nil => intro w; rfl
  | cons c cs ih => intro w; simp [mgs, ih]

theorem comb_append {a : List ℝ} {v : List W} (h : a.length = v.length) (a' : List ℝ) (v' : List W) :
    comb (a ++ a') (v ++ v') = comb a v + comb a' v' := by
  unfold comb
  rw [List.zipWith_append h, List.sum_append]

theorem comb_prefix {a : List ℝ} {v v' : List W} (h : a.length ≤ v.length) : comb a (v ++ v') = comb a v := by
  induction a generalizing v with
  | nil => simp [comb]
  | cons x a ih =>
    cases v with
    | nil => simp at h
    | cons y v =>
      have := ih (v := v) (by simpa using h)
      simp only [comb, List.cons_append, List.zipWith_cons_cons, List.sum_cons] at this ⊢
      rw [this]

/-- Arnoldi relation of column `j`: `A z_j = Σ B[i, j] c_i + Σ H[i, j] v_i` -/
structure Relation (A : W → W) (cs : List W) (s : Basis W) : Prop where
  lenB : s.B.length = s.zs.length
  lenH : s.H.length = s.zs.length
  colB : ∀ col ∈ s.B, col.length = cs.length
  colH : ∀ col ∈ s.H, col.length ≤ s.vs.length
  image : ∀ j (hj : j < s.zs.length), A (s.zs[j]) = comb (s.B[j]'(lenB ▸ hj)) cs + comb (s.H[j]'(lenH ▸ hj)) s.vs

theorem arnoldi_relation (A M : W → W) (cs : List W) (s : Basis W) (h : Relation A cs s) : Relation A cs (arnoldi A M cs s).1 := by
  unfold arnoldi
  set z := M (s.vs.getLastD 0)
  set b := mgs cs (A z) with hb
  set o := mgs s.vs b.2 with ho
  set w' := if ‖o.2‖ = 0 then o.2 else ‖o.2‖⁻¹ • o.2 with hw
  have hlast : ‖o.2‖ • w' = o.2 := by
    rw [hw]
    by_cases h0 : ‖o.2‖ = 0
    · rw [if_pos h0, h0, norm_eq_zero.mp h0]; simp
    · rw [if_neg h0, smul_smul, mul_inv_cancel₀ h0, one_smul]
  have hol : o.1.length = s.vs.length := mgs_length _ _
  refine ⟨by simp [h.lenB], by simp [h.lenH], ?_, ?_, ?_⟩
  · intro col hcol
    rcases List.mem_append.mp hcol with hc | hc
    · exact h.colB col hc
    · rw [List.mem_singleton.mp hc]; exact mgs_length _ _
  · intro col hcol
    rcases List.mem_append.mp hcol with hc | hc
    · have := h.colH col hc
      simp; omega
    · rw [List.mem_singleton.mp hc]; simp [mgs_length]
  · intro j hj
    simp only [List.length_append, List.length_singleton] at hj
    rcases Nat.lt_succ_iff_lt_or_eq.mp hj with hj' | hj'
    · simp only [List.getElem_append_left hj', List.getElem_append_left (h.lenB ▸ hj' : j < s.B.length),
        List.getElem_append_left (h.lenH ▸ hj' : j < s.H.length)]
      rw [h.image j hj', comb_prefix (h.colH _ (List.getElem_mem _))]
    · subst hj'
      have e1 : (s.B ++ [b.1])[s.zs.length]'(by simp [h.lenB]) = b.1 := by
        rw [List.getElem_append_right (by rw [h.lenB])]; simp
      have e2 : (s.H ++ [o.1 ++ [‖o.2‖]])[s.zs.length]'(by simp [h.lenH]) = o.1 ++ [‖o.2‖] := by
        rw [List.getElem_append_right (by rw [h.lenH])]; simp
      have e3 : (s.zs ++ [z])[s.zs.length]'(by simp) = z := by
        rw [List.getElem_append_right (by rfl)]; simp
      show A ((s.zs ++ [z])[s.zs.length]'_) = comb ((s.B ++ [b.1])[s.zs.length]'_) cs + comb ((s.H ++ [o.1 ++ [‖o.2‖]])[s.zs.length]'_) (s.vs ++ [w'])
      rw [e1, e2, e3, comb_append hol]
      have h1 := mgs_comb cs (A z)
      have h2 := mgs_comb s.vs b.2
      have h3 : comb [‖o.2‖] [w'] = o.2 := by simp [comb, hlast]
      rw [← ho] at h2
      rw [h3, ← h2]
      exact h1

theorem arnoldiLoop_relation (e : Ext W) (A M : W → W) (tol : ℝ) (cs : List W) : ∀ (n : Nat) (s : Basis W), Relation A cs s →
    Relation A cs (arnoldiLoop e A M tol cs n s) := by
  intro n
  induction n with
  | zero => intro s h; exact h
  | succ n ih =>
    intro s h
    rw [arnoldiLoop]
    split
    · exact arnoldi_relation A M cs s h
    · exact ih _ (arnoldi_relation A M cs s h)

theorem arnoldiLoop_length (e : Ext W) (A M : W → W) (tol : ℝ) (cs : List W) : ∀ (n : Nat) (s : Basis W),
    (arnoldiLoop e A M tol cs n s).zs.length ≤ s.zs.length + n ∧ (0 < n → s.zs.length < (arnoldiLoop e A M tol cs n s).zs.length) := by
  intro n
  induction n with
  | zero => intro s; simp [arnoldiLoop]
  | succ n ih =>
    intro s
    rw [arnoldiLoop]
    have hl : (arnoldi A M cs s).1.zs.length = s.zs.length + 1 := by simp [arnoldi]
    split
    · omega
    · have := ih (arnoldi A M cs s).1
      constructor
      · omega
      · intro _
        rcases Nat.eq_zero_or_pos n with h0 | h0
        · subst h0; simp only [arnoldiLoop]; omega
        · have := this.2 h0; omega

theorem comb_map_linear (A : W →ₗ[ℝ] W) (a : List ℝ) (v : List W) : A (comb a v) = comb a (v.map A) := by
  induction a generalizing v with
  | nil => simp [comb]
  | cons x a ih =>
    cases v with
    | nil => simp [comb]
    | cons y v =>
      have := ih v
      simp only [comb, List.zipWith_cons_cons, List.sum_cons, List.map_cons, map_add, map_smul] at this ⊢
      rw [this]

theorem comb_range (n : Nat) (f : Nat → ℝ) (v : List W) (h : v.length = n) :
    comb ((List.range n).map f) v = ∑ i ∈ Finset.range n, f i • v.getD i 0 := by
  subst h
  induction v using List.reverseRecOn with
  | nil => simp [comb]
  | append_singleton v y ih =>
    rw [List.length_append, List.length_singleton, List.range_succ, List.map_append, comb_append (by simp), ih, Finset.sum_range_succ]
    congr 1
    · refine Finset.sum_congr rfl fun i hi => ?_
      rw [List.getD_append _ _ _ _ (Finset.mem_range.mp hi)]
    · simp [comb]

theorem zip_sum_smul (cols : List (List ℝ)) (y : List ℝ) (g : List ℝ → W) :
    (List.zipWith (fun col yj => yj • g col) cols y).sum = comb y (cols.map g) := by
  induction cols generalizing y with
  | nil => simp [comb]
  | cons c cols ih =>
    cases y with
    | nil => simp [comb]
    | cons t y =>
      have := ih y
      simp only [comb, List.zipWith_cons_cons, List.sum_cons, List.map_cons] at this ⊢
      rw [this]

theorem comb_getD (col : List ℝ) (v : List W) (h : col.length = v.length) : comb col v = ∑ i ∈ Finset.range v.length, col.getD i 0 • v.getD i 0 := by
  rw [← comb_range _ _ _ rfl]
  congr 1
  refine List.ext_getElem (by simp [h]) fun i h1 h2 => ?_
  rw [List.getElem_map, List.getElem_range, List.getD_eq_getElem _ _ h1]

theorem comb_add (y : List ℝ) (a b : List W) (hl : a.length = b.length) :
    comb y (List.zipWith (· + ·) a b) = comb y a + comb y b := by
  induction y generalizing a b with
  | nil => simp [comb]
  | cons t y ih =>
    cases a with
    | nil =>
      cases b with
      | nil => simp [comb]
      | cons _ _ => simp at hl
    | cons p a =>
      cases b with
      | nil => simp at hl
      | cons q b =>
        have := ih a b (by simpa using hl)
        simp only [comb, List.zipWith_cons_cons, List.sum_cons, smul_add] at this ⊢
        rw [this]
        abel

/-- the sum over the columns of `B`, exchanged -/
theorem byv_comb (B : List (List ℝ)) (y : List ℝ) (cs : List W) (h : ∀ col ∈ B, col.length = cs.length) :
    comb ((List.range cs.length).map fun i => (List.zipWith (fun col yj => col.getD i 0 * yj) B y).sum) cs
      = (List.zipWith (fun col yj => yj • comb col cs) B y).sum := by
  rw [comb_range _ _ _ rfl]
  induction B generalizing y with
  | nil => simp
  | cons col B ih =>
    cases y with
    | nil => simp
    | cons t y =>
      simp only [List.zipWith_cons_cons, List.sum_cons]
      rw [← ih y (fun c hc => h c (List.mem_cons_of_mem _ hc)), comb_getD col cs (h col List.mem_cons_self), Finset.smul_sum,
        ← Finset.sum_add_distrib]
      refine Finset.sum_congr rfl fun i _ => ?_
      rw [add_smul, smul_smul, mul_comm]

/-- **The new pair is consistent** whatever coefficients the least-squares routine returns: `A u = c`. -/
theorem pair_consistent (A : W →ₗ[ℝ] W) (cu : List (W × W)) (hc : ∀ p ∈ cu, p.1 = A p.2) (o : Basis W)
    (h : Relation A (cu.map (·.1)) o) (y : List ℝ) :
    A (comb y o.zs - comb ((List.range cu.length).map fun i => (List.zipWith (fun col yj => col.getD i 0 * yj) o.B y).sum) (cu.map (·.2)))
      = (List.zipWith (fun col yj => yj • comb col o.vs) o.H y).sum := by
  rw [map_sub, comb_map_linear, comb_map_linear]
  have e1 : (cu.map (·.2)).map A = cu.map (·.1) := by
    rw [List.map_map]
    refine List.map_congr_left fun p hp => ?_
    simp [hc p hp]
  have e2 : o.zs.map A = List.zipWith (· + ·) (o.B.map fun col => comb col (cu.map (·.1))) (o.H.map fun col => comb col o.vs) := by
    refine List.ext_getElem (by simp [h.lenB, h.lenH]) fun j h1 h2 => ?_
    simp only [List.getElem_map, List.getElem_zipWith]
    exact h.image j (by simpa using h1)
  have e3 := byv_comb o.B y (cu.map (·.1)) h.colB
  rw [List.length_map] at e3
  rw [e1, e2, comb_add _ _ _ (by simp [h.lenB, h.lenH]), e3, zip_sum_smul, zip_sum_smul]
  abel

/-- residual equal to `b − A x` and consistent stored pairs -/
structure Good (A : W → W) (b : W) (s : St W) : Prop where
  resid : s.r = b - A s.x
  pairs : Consistent A s.cu

theorem norm_sub_proj_le (c r : W) (hc : ‖c‖ = 1) : ‖r - (inner ℝ c r : ℝ) • c‖ ≤ ‖r‖ := by
  have h : ‖r - (inner ℝ c r : ℝ) • c‖ ^ 2 = ‖r‖ ^ 2 - (inner ℝ c r : ℝ) ^ 2 := by
    rw [norm_sub_sq_real, inner_smul_right, norm_smul, hc, real_inner_comm, Real.norm_eq_abs, mul_one, sq_abs]
    ring
  have : ‖r - (inner ℝ c r : ℝ) • c‖ ^ 2 ≤ ‖r‖ ^ 2 := by rw [h]; nlinarith [sq_nonneg (inner ℝ c r : ℝ)]
  exact le_of_sq_le_sq this (norm_nonneg _)
where
  le_of_sq_le_sq {x y : ℝ} (h : x ^ 2 ≤ y ^ 2) (hy : 0 ≤ y) : x ≤ y := abs_le_of_sq_le_sq' h hy |>.2

theorem outerStep_good (e : Ext W) (A : W →ₗ[ℝ] W) (b : W) (k : Nat) (s : St W) (hs : Good A b s) (beta : ℝ) (o : Basis W)
    (ho : Relation A (s.cu.map (·.1)) o) :
    Good A b (outerStep e k s beta o) ∧ ‖(outerStep e k s beta o).r‖ ≤ ‖s.r‖ := by
  unfold outerStep
  simp only
  set y := (e.lsq o.H).map (beta * ·)
  have hp := pair_consistent A s.cu (fun p hp => (hs.pairs p hp).1) o ho y
  set ux := comb y o.zs - comb ((List.range s.cu.length).map fun i => (List.zipWith (fun col yj => col.getD i 0 * yj) o.B y).sum) (s.cu.map (·.2))
  set cx := (List.zipWith (fun col yj => yj • comb col o.vs) o.H y).sum
  by_cases h0 : ‖cx‖ = 0
  · rw [if_pos h0]
    exact ⟨⟨hs.resid, hs.pairs⟩, le_rfl⟩
  · rw [if_neg h0]
    have hn : ‖‖cx‖⁻¹ • cx‖ = 1 := by
      rw [norm_smul, norm_inv, norm_norm, inv_mul_cancel₀ h0]
    refine ⟨⟨?_, ?_⟩, norm_sub_proj_le _ _ hn⟩
    · show s.r - _ = b - A (s.x + _)
      rw [hs.resid, map_add, map_smul, map_smul, hp]
      abel
    · intro p hp'
      rcases List.mem_append.mp hp' with h | h
      · exact hs.pairs p (List.mem_of_mem_drop h)
      · rw [List.mem_singleton.mp h]
        refine ⟨?_, hn⟩
        show _ = A (‖cx‖⁻¹ • ux)
        rw [map_smul, hp]

theorem relation_init (A : W → W) (cs : List W) (v : W) : Relation A cs ⟨[v], [], [], []⟩ :=
  ⟨rfl, rfl, by simp, by simp, fun j hj => absurd hj (by simp)⟩

theorem mainLoop_good (e : Ext W) (A : W →ₗ[ℝ] W) (M : W → W) (b : W) (tol : ℝ) (m k : Nat) : ∀ (n : Nat) (first : Bool) (beta : ℝ) (s : St W),
    Good A b s → (n = 0 → ‖s.r‖ ≤ beta) →
    Good A b (mainLoop e A M b tol m k n first beta s).1 ∧ ‖(mainLoop e A M b tol m k n first beta s).1.r‖ ≤ ‖s.r‖ ∧
      ‖(mainLoop e A M b tol m k n first beta s).1.r‖ ≤ (mainLoop e A M b tol m k n first beta s).2 ∧
      (0 < n → (mainLoop e A M b tol m k n first beta s).2 ≤ ‖s.r‖) := by
  intro n
  induction n with
  | zero => intro first beta s hs h; exact ⟨hs, le_rfl, h rfl, by simp⟩
  | succ n ih =>
    intro first beta s hs _
    rw [mainLoop]
    have e0 : (if ‖s.r‖ ≤ tol * ‖b‖ ∧ (first = false ∨ s.cu ≠ []) then { s with r := b - A s.x } else s) = s := by
      split
      · rw [← hs.resid]
      · rfl
    simp only [e0]
    by_cases hb : ‖s.r‖ ≤ tol * ‖b‖
    · simp only [if_pos hb]
      exact ⟨hs, le_rfl, le_rfl, fun _ => le_rfl⟩
    · simp only [if_neg hb]
      have hr := arnoldiLoop_relation e A M (tol * ‖b‖ / ‖s.r‖) (s.cu.map (·.1)) (m + (k - s.cu.length)) _
        (relation_init A (s.cu.map (·.1)) (‖s.r‖⁻¹ • s.r))
      have ho := outerStep_good e A b k s hs ‖s.r‖ _ hr
      have hi := ih false ‖s.r‖ _ ho.1 (fun _ => ho.2)
      refine ⟨hi.1, hi.2.1.trans ho.2, hi.2.2.1, fun _ => ?_⟩
      rcases Nat.eq_zero_or_pos n with h0 | h0
      · subst h0; simp [mainLoop]
      · exact (hi.2.2.2 h0).trans ho.2

/-! ## The vectors kept between calls -/

/-- What is asked of `scipy.linalg.qr` with pivoting: orthonormal columns, `C[:, P] = Q R` with `R` upper triangular, and a nonzero first
pivot unless all columns are zero. -/
structure QrSpec (C cs : List W) (R : Nat → Nat → ℝ) (P : Nat → Nat) : Prop where
  unit : ∀ c ∈ cs, ‖c‖ = 1
  col : ∀ j < cs.length, P j < C.length
  count : cs.length ≤ C.length
  factor : ∀ j < cs.length, C.getD (P j) 0 = ∑ i ∈ Finset.range (j + 1), R i j • cs.getD i 0
  pivot : (∃ c ∈ C, c ≠ 0) → R 0 0 ≠ 0

/-- the images kept by an earlier call are images under `A`, and not all images vanish -/
structure KeptOk (A : W → W) (cu : List (Option W × W)) : Prop where
  image : ∀ p ∈ cu, ∀ c, p.1 = some c → c = A p.2
  some_nonzero : cu ≠ [] → ∃ p ∈ cu, A p.2 ≠ 0

theorem backSub_image (A : W →ₗ[ℝ] W) (us cs : List W) (R : Nat → Nat → ℝ) (P : Nat → Nat) (h00 : R 0 0 ≠ 0)
    (hf : ∀ j < cs.length, A (us.getD (P j) 0) = ∑ i ∈ Finset.range (j + 1), R i j • cs.getD i 0) :
    ∀ (n : Nat) (acc : List W), acc.length + n = cs.length → (∀ i < acc.length, A (acc.getD i 0) = cs.getD i 0) →
    (backSub us R P n acc).length ≤ cs.length ∧ ∀ i < (backSub us R P n acc).length, A ((backSub us R P n acc).getD i 0) = cs.getD i 0 := by
  intro n
  induction n with
  | zero => intro acc hl ha; exact ⟨by simp [backSub]; omega, ha⟩
  | succ n ih =>
    intro acc hl ha
    rw [backSub]
    split
    · exact ⟨by omega, ha⟩
    · rename_i hd
      refine ih _ (by simp; omega) ?_
      intro i hi
      simp only [List.length_append, List.length_singleton] at hi
      rcases Nat.lt_succ_iff_lt_or_eq.mp hi with h | h
      · rw [List.getD_append _ _ _ _ h]; exact ha i h
      · subst h
        have hR : R acc.length acc.length ≠ 0 := by
          intro h0
          rw [h0, abs_zero] at hd
          have : (0 : ℝ) < 1e-12 * |R 0 0| := by positivity
          exact hd this
        rw [List.getD_append_right _ _ _ _ le_rfl, Nat.sub_self]
        show A ((R acc.length acc.length)⁻¹ • (us.getD (P acc.length) 0 - ∑ i ∈ Finset.range acc.length, R i acc.length • acc.getD i 0)) = _
        rw [map_smul, map_sub, hf _ (by omega), map_sum, Finset.sum_range_succ]
        have : ∑ i ∈ Finset.range acc.length, A (R i acc.length • acc.getD i 0) = ∑ i ∈ Finset.range acc.length, R i acc.length • cs.getD i 0 := by
          refine Finset.sum_congr rfl fun i hi => ?_
          rw [map_smul, ha i (Finset.mem_range.mp hi)]
        rw [this, add_sub_cancel_left, smul_smul, inv_mul_cancel₀ hR, one_smul]

theorem filled_mem {A : W → W} {cu : List (Option W × W)} (h : KeptOk A cu) : ∀ p ∈ filled A cu, p.1 = A p.2 := by
  intro p hp
  unfold filled at hp
  rw [List.mem_map] at hp
  obtain ⟨q, hq, rfl⟩ := hp
  have hq' : q ∈ cu := by
    rcases List.mem_append.mp hq with h' | h' <;> exact List.mem_of_mem_filter h'
  cases hc : q.1 with
  | none => simp
  | some c => simpa using h.image q hq' c hc

theorem filled_nonzero {A : W → W} {cu : List (Option W × W)} (h : KeptOk A cu) (hne : cu ≠ []) : ∃ c ∈ (filled A cu).map (·.1), c ≠ 0 := by
  obtain ⟨p, hp, hA⟩ := h.some_nonzero hne
  refine ⟨A p.2, ?_, hA⟩
  rw [List.mem_map]
  refine ⟨(p.1.getD (A p.2), p.2), ?_, ?_⟩
  · unfold filled
    rw [List.mem_map]
    refine ⟨p, ?_, rfl⟩
    rw [List.mem_append, List.mem_filter, List.mem_filter]
    cases hc : p.1 with
    | none => exact Or.inl ⟨hp, by simp⟩
    | some c => exact Or.inr ⟨hp, by simp⟩
  · cases hc : p.1 with
    | none => simp
    | some c => simpa using h.image p hp c hc

theorem reorth_consistent (e : Ext W) (A : W →ₗ[ℝ] W) (cu : List (Option W × W)) (h : KeptOk A cu)
    (hq : ∀ C ≠ [], QrSpec C (e.qrp C).1 (e.qrp C).2.1 (e.qrp C).2.2) : Consistent A (reorth e A cu) := by
  unfold reorth
  by_cases hne : cu = []
  · simp [hne, Consistent]
  · simp only [if_neg hne]
    set f := filled A cu with hfdef
    have hfne : f.map (·.1) ≠ [] := by
      obtain ⟨c, hc, _⟩ := filled_nonzero h hne
      exact List.ne_nil_of_mem hc
    have hs := hq (f.map (·.1)) hfne
    set q := e.qrp (f.map (·.1))
    have h00 := hs.pivot (filled_nonzero h hne)
    have hfac : ∀ j < q.1.length, A ((f.map (·.2)).getD (q.2.2 j) 0) = ∑ i ∈ Finset.range (j + 1), q.2.1 i j • q.1.getD i 0 := by
      intro j hj
      rw [← hs.factor j hj]
      have hlt := hs.col j hj
      have hlt' : q.2.2 j < f.length := by simpa using hlt
      rw [List.getD_eq_getElem _ _ (by simpa using hlt'), List.getD_eq_getElem _ _ hlt, List.getElem_map, List.getElem_map]
      exact (filled_mem h _ (List.getElem_mem hlt')).symm
    have hb := backSub_image A (f.map (·.2)) q.1 q.2.1 q.2.2 h00 hfac q.1.length [] (by simp) (by simp)
    intro p hp
    rw [List.mem_reverse] at hp
    obtain ⟨i, hi, hip⟩ := List.getElem_of_mem hp
    rw [List.getElem_zip] at hip
    have hi' : i < q.1.length ∧ i < (backSub (f.map (·.2)) q.2.1 q.2.2 q.1.length []).length := by
      rw [List.length_zip] at hi; omega
    have := hb.2 i hi'.2
    rw [List.getD_eq_getElem _ _ hi'.2, List.getD_eq_getElem _ _ hi'.1] at this
    rw [← hip]
    exact ⟨this.symm, hs.unit _ (List.getElem_mem _)⟩

theorem project_good (A : W →ₗ[ℝ] W) (b : W) : ∀ (cu : List (W × W)), Consistent A cu → ∀ (x r : W), r = b - A x →
    (project cu (x, r)).2 = b - A (project cu (x, r)).1 ∧ ‖(project cu (x, r)).2‖ ≤ ‖r‖ := by
  intro cu
  induction cu with
  | nil => intro _ x r h; exact ⟨h, le_rfl⟩
  | cons p cu ih =>
    intro hc x r h
    obtain ⟨c, u⟩ := p
    have hp := hc (c, u) List.mem_cons_self
    rw [project]
    have := ih (fun q hq => hc q (List.mem_cons_of_mem _ hq)) (x + (inner ℝ c r : ℝ) • u) (r - (inner ℝ c r : ℝ) • c)
      (by rw [map_add, map_smul, ← hp.1, h]; abel)
    exact ⟨this.1, this.2.trans (norm_sub_proj_le c r hp.2)⟩

/-- **C69 (reported residual).**  For a linear operator and kept vectors that belong to it, the residual of the returned vector is at most
the reported norm, and the reported norm is at most the residual of the first guess — also when the iteration limit is reached, and
whatever the least-squares routine and the preconditioner return. -/
theorem C69_reported (e : Ext W) (A : W →ₗ[ℝ] W) (M : W → W) (m k maxiter : Nat) (cu : List (Option W × W)) (b x0 : W) (tol : ℝ)
    (a : Answer W) (hq : ∀ C ≠ [], QrSpec C (e.qrp C).1 (e.qrp C).2.1 (e.qrp C).2.2) (hk : KeptOk A cu) (hb : b ≠ 0)
    (h : gcrot e A M m k maxiter cu b x0 tol = some a) :
    ‖b - A a.x‖ ≤ a.beta ∧ a.beta ≤ ‖b - A x0‖ := by
  unfold gcrot at h
  rw [if_neg (norm_ne_zero_iff.mpr hb)] at h
  by_cases hm : maxiter = 0
  · simp [hm] at h
  · simp only [hm, if_false, Option.some.injEq] at h
    subst h
    have hr := reorth_consistent e A cu hk hq
    have hp := project_good A b _ hr x0 (b - A x0) rfl
    have := mainLoop_good e A M b tol m k maxiter true 0 ⟨_, _, reorth e A cu, 0⟩ ⟨hp.1, hr⟩ (fun hx => absurd hx hm)
    refine ⟨?_, (this.2.2.2 (Nat.pos_of_ne_zero hm)).trans hp.2⟩
    rw [← this.1.resid]
    exact this.2.2.1

/-- **C69 (history).**  What a call leaves behind belongs to its operator again, so a sequence of calls with one operator satisfies the
hypothesis of `C69_reported` at every call (the operator must not annihilate the returned vector). -/
theorem C69_kept (e : Ext W) (A : W →ₗ[ℝ] W) (M : W → W) (m k maxiter : Nat) (cu : List (Option W × W)) (b x0 : W) (tol : ℝ)
    (a : Answer W) (hq : ∀ C ≠ [], QrSpec C (e.qrp C).1 (e.qrp C).2.1 (e.qrp C).2.2) (hk : KeptOk A cu)
    (h : gcrot e A M m k maxiter cu b x0 tol = some a) (hx : A a.x ≠ 0 ∨ b = 0) : KeptOk A a.kept := by
  unfold gcrot at h
  by_cases h0 : ‖b‖ = 0
  · rw [if_pos h0, Option.some.injEq] at h
    subst h
    exact hk
  · rw [if_neg h0] at h
    by_cases hm : maxiter = 0
    · simp [hm] at h
    · simp only [hm, if_false, Option.some.injEq] at h
      subst h
      have hr := reorth_consistent e A cu hk hq
      have hp := project_good A b _ hr x0 (b - A x0) rfl
      have hg := (mainLoop_good e A M b tol m k maxiter true 0 ⟨_, _, reorth e A cu, 0⟩ ⟨hp.1, hr⟩ (fun hx => absurd hx hm)).1
      refine ⟨?_, fun _ => ⟨(none, _), List.mem_append_right _ (List.mem_singleton.mpr rfl), ?_⟩⟩
      · intro p hp' c hc
        rcases List.mem_append.mp hp' with hp' | hp'
        · obtain ⟨q, hq', rfl⟩ := List.mem_map.mp hp'
          simp only [Option.some.injEq] at hc
          rw [← hc]
          exact (hg.pairs q hq').1
        · rw [List.mem_singleton.mp hp'] at hc
          simp at hc
      · rcases hx with hx | hx
        · exact hx
        · exact absurd (norm_eq_zero.mpr hx) h0

/-- the calls of a whole run, each starting from what the one before kept: the kept vectors after the calls (right-hand side, first guess) -/
noncomputable def runs (e : Ext W) (A M : W → W) (m k maxiter : Nat) (tol : ℝ) : List (W × W) → List (Option W × W) → List (Option W × W)
  | [], cu => cu
  | (b, x0) :: rest, cu =>
    match gcrot e A M m k maxiter cu b x0 tol with
    | some a => runs e A M m k maxiter tol rest a.kept
    | none => cu

/-- A whole run with one injective linear operator in which every returned vector is nonzero starts every call with vectors that belong to
the operator. -/
theorem C69_run (e : Ext W) (A : W →ₗ[ℝ] W) (hinj : Function.Injective A) (M : W → W) (m k maxiter : Nat) (tol : ℝ)
    (hq : ∀ C ≠ [], QrSpec C (e.qrp C).1 (e.qrp C).2.1 (e.qrp C).2.2) : ∀ (calls : List (W × W)) (cu : List (Option W × W)), KeptOk A cu →
    (∀ pre b x0 a, pre ++ [(b, x0)] <+: calls → gcrot e A M m k maxiter (runs e A M m k maxiter tol pre cu) b x0 tol = some a → a.x ≠ 0 ∨ b = 0) →
    KeptOk A (runs e A M m k maxiter tol calls cu) := by
  intro calls
  induction calls with
  | nil => intro cu h _; exact h
  | cons p rest ih =>
    intro cu h hx
    obtain ⟨b, x0⟩ := p
    rw [runs]
    cases ha : gcrot e A M m k maxiter cu b x0 tol with
    | none => exact h
    | some a =>
      have h1 : KeptOk A a.kept := by
        refine C69_kept e A M m k maxiter cu b x0 tol a hq h ha ?_
        rcases hx [] b x0 a (by simp) ha with h' | h'
        · left
          intro h0
          exact h' (hinj (by rw [h0, map_zero]))
        · exact Or.inr h'
      refine ih a.kept h1 fun pre b' x' a' hpre hg => hx ((b, x0) :: pre) b' x' a' ?_ ?_
      · exact List.cons_prefix_cons.mpr ⟨rfl, hpre⟩
      · rw [runs, ha]; exact hg

/-! ## Work and memory -/

theorem filled_length (A : W → W) (cu : List (Option W × W)) : (filled A cu).length = cu.length := by
  unfold filled
  rw [List.length_map, List.length_append]
  induction cu with
  | nil => rfl
  | cons p cu ih =>
    cases h : p.1 <;> simp [List.filter_cons, h] <;> omega

theorem reorth_length (e : Ext W) (A : W → W) (cu : List (Option W × W)) (hq : ∀ C ≠ [], QrSpec C (e.qrp C).1 (e.qrp C).2.1 (e.qrp C).2.2) :
    (reorth e A cu).length ≤ cu.length := by
  unfold reorth
  by_cases hne : cu = []
  · simp [hne]
  · simp only [if_neg hne, List.length_reverse, List.length_zip]
    have hl := filled_length A cu
    have hfne : (filled A cu).map (·.1) ≠ [] := by
      intro h0
      have := congrArg List.length h0
      rw [List.length_map, hl] at this
      exact hne (List.length_eq_zero_iff.mp this)
    have := (hq _ hfne).count
    rw [List.length_map, hl] at this
    omega

theorem mainLoop_size (e : Ext W) (A M : W → W) (b : W) (tol : ℝ) (m k K : Nat) (hk : 1 ≤ k) (hK : k ≤ K) : ∀ (n : Nat) (first : Bool) (beta : ℝ)
    (s : St W), s.cu.length ≤ K →
    (mainLoop e A M b tol m k n first beta s).1.cu.length ≤ K ∧ (mainLoop e A M b tol m k n first beta s).1.niter ≤ s.niter + n * (m + k) := by
  intro n
  induction n with
  | zero => intro first beta s h; exact ⟨h, by simp [mainLoop]⟩
  | succ n ih =>
    intro first beta s h
    rw [mainLoop]
    generalize hs : (if ‖s.r‖ ≤ tol * ‖b‖ ∧ (first = false ∨ s.cu ≠ []) then { s with r := b - A s.x } else s) = s'
    have h1 : s'.cu = s.cu ∧ s'.niter = s.niter := by rw [← hs]; split <;> exact ⟨rfl, rfl⟩
    simp only
    split
    · rw [h1.1, h1.2]; exact ⟨h, by omega⟩
    · generalize hb : arnoldiLoop e A M (tol * ‖b‖ / ‖s'.r‖) (s'.cu.map (·.1)) (m + (k - s'.cu.length)) ⟨[‖s'.r‖⁻¹ • s'.r], [], [], []⟩ = o
      have hlen : o.zs.length ≤ m + k := by
        have := (arnoldiLoop_length e A M (tol * ‖b‖ / ‖s'.r‖) (s'.cu.map (·.1)) (m + (k - s'.cu.length)) ⟨[‖s'.r‖⁻¹ • s'.r], [], [], []⟩).1
        rw [hb] at this
        simp only [List.length_nil] at this
        omega
      have hstep : (outerStep e k s' ‖s'.r‖ o).cu.length ≤ K ∧ (outerStep e k s' ‖s'.r‖ o).niter = s'.niter + o.zs.length := by
        unfold outerStep
        simp only
        split
        · exact ⟨by rw [h1.1]; exact h, rfl⟩
        · refine ⟨?_, rfl⟩
          simp only [dropOldest, List.length_append, List.length_drop, List.length_singleton]
          rw [h1.1]; omega
      have := ih false ‖s'.r‖ _ hstep.1
      refine ⟨this.1, this.2.trans ?_⟩
      rw [hstep.2, h1.2, Nat.succ_mul]
      omega

/-- **C69 (work and memory).**  A call applies the operator in at most `maxiter (m + k)` inner iterations, and keeps at most one vector more
than the larger of `k` and the number it found. -/
theorem C69_bounds (e : Ext W) (A M : W → W) (m k maxiter : Nat) (cu : List (Option W × W)) (b x0 : W) (tol : ℝ)
    (a : Answer W) (hq : ∀ C ≠ [], QrSpec C (e.qrp C).1 (e.qrp C).2.1 (e.qrp C).2.2) (hk : 1 ≤ k)
    (h : gcrot e A M m k maxiter cu b x0 tol = some a) : a.niter ≤ maxiter * (m + k) ∧ a.kept.length ≤ max k cu.length + 1 := by
  unfold gcrot at h
  by_cases h0 : ‖b‖ = 0
  · rw [if_pos h0, Option.some.injEq] at h
    subst h
    exact ⟨Nat.zero_le _, by simp; omega⟩
  · rw [if_neg h0] at h
    by_cases hm : maxiter = 0
    · simp [hm] at h
    · simp only [hm, if_false, Option.some.injEq] at h
      subst h
      have hl := reorth_length e A cu hq
      have := mainLoop_size e A M b tol m k (max k cu.length) hk (le_max_left _ _) maxiter true 0
        ⟨(project (reorth e A cu) (x0, b - A x0)).1, (project (reorth e A cu) (x0, b - A x0)).2, reorth e A cu, 0⟩
        (hl.trans (le_max_right _ _))
      refine ⟨by simpa using this.2, ?_⟩
      simpa using this.1

/-! ## What fails

The examples live in the space `ℝ`, with the obvious QR factorisation and least-squares solution of one-dimensional problems. -/

/-- index of the first longest entry -/
noncomputable def argmaxAbs : List ℝ → Nat
  | [] => 0
  | [_] => 0
  | a :: b :: l => let i := argmaxAbs (b :: l); if |(b :: l).getD i 0| > |a| then i + 1 else 0

/-- pivoted QR of a row of numbers, residual and least squares of the problem with a single column -/
noncomputable def oneDim : Ext ℝ where
  qrp C := ([1], fun i j => if i = 0 ∧ j = 0 then C.getD (argmaxAbs C) 0 else 0, fun _ => argmaxAbs C)
  resid _ := 1
  lsq H := match H with
    | [[a, _]] => [a⁻¹]
    | H => H.map fun _ => 0

/-- For a number as operator the first pass of the inner iteration breaks down, with one column. -/
theorem one_dim_step (a r t : ℝ) (cs : List ℝ) (hr : r ≠ 0) (hcs : cs = [] ∨ cs = [1]) (n : Nat) :
    arnoldiLoop oneDim (fun x => a * x) id t cs (n + 1) ⟨[‖r‖⁻¹ • r], [], [], []⟩
      = if cs = [] then ⟨[|r|⁻¹ * r, 0], [|r|⁻¹ * r], [[]], [[a, 0]]⟩ else ⟨[|r|⁻¹ * r, 0], [|r|⁻¹ * r], [[a * (|r|⁻¹ * r)]], [[0, 0]]⟩ := by
  have hv : (|r|⁻¹ * r) * (|r|⁻¹ * r) = 1 := by
    have : |r| ≠ 0 := abs_ne_zero.mpr hr
    have h2 : |r| * |r| = r * r := abs_mul_abs_self r
    field_simp
    nlinarith
  rw [Real.norm_eq_abs, smul_eq_mul]
  generalize |r|⁻¹ * r = v at hv ⊢
  have he : ∀ w : ℝ, ¬ (0 : ℝ) > eps * ‖w‖ := fun w => not_lt.mpr (by unfold eps; positivity)
  rcases hcs with rfl | rfl
  · have e : arnoldi (fun x => a * x) id [] (⟨[v], [], [], []⟩ : Basis ℝ) = (⟨[v, 0], [v], [[]], [[a, 0]]⟩, ¬ (0 : ℝ) > eps * ‖a * v‖) := by
      have h1' : a * v - a * v * v * v = 0 := by linear_combination (-(a * v)) * hv
      have h2' : a * v * v = a := by linear_combination a * hv
      simp [arnoldi, mgs, h1', h2']
    rw [arnoldiLoop, e, if_pos (Or.inr (he _)), if_pos rfl]
  · have e : arnoldi (fun x => a * x) id [1] (⟨[v], [], [], []⟩ : Basis ℝ) = (⟨[v, 0], [v], [[a * v]], [[0, 0]]⟩, ¬ (0 : ℝ) > eps * ‖a * v‖) := by
      simp [arnoldi, mgs]
    rw [arnoldiLoop, e, if_pos (Or.inr (he _)), if_neg (by simp)]

/-- A state with the direction 1 projected out and a residual above the tolerance does not change any more. -/
theorem stuck (a x r u b tol : ℝ) (ni : Nat) (hr : tol * ‖b‖ < ‖r‖) (ht : 0 ≤ tol) : ∀ (n : Nat) (f : Bool) (be : ℝ),
    ∃ be' ni', mainLoop oneDim (fun x => a * x) id b tol 20 20 n f be ⟨x, r, [(1, u)], ni⟩ = (⟨x, r, [(1, u)], ni'⟩, be') := by
  intro n
  induction n generalizing ni with
  | zero => intro f be; exact ⟨_, _, rfl⟩
  | succ n ih =>
    intro f be
    rw [mainLoop]
    have hr0 : r ≠ 0 := by
      intro h; rw [h, norm_zero] at hr
      exact absurd hr (not_lt.mpr (by positivity))
    simp only [if_neg (fun h : ‖r‖ ≤ tol * ‖b‖ ∧ (f = false ∨ [((1 : ℝ), u)] ≠ []) => absurd h.1 (not_le.mpr hr)), if_neg (not_le.mpr hr)]
    have h1 := one_dim_step a r (tol * ‖b‖ / ‖r‖) [1] hr0 (Or.inr rfl) 38
    simp only [List.map_cons, List.map_nil, List.length_singleton]
    rw [show 20 + (20 - 1) = 38 + 1 from rfl, h1, if_neg (by simp)]
    have h2 : ∀ v : ℝ, outerStep oneDim 20 (⟨x, r, [(1, u)], ni⟩ : St ℝ) ‖r‖ ⟨[v, 0], [v], [[a * v]], [[0, 0]]⟩ = ⟨x, r, [(1, u)], ni + 1⟩ := by
      intro v
      simp [outerStep, oneDim, comb]
    rw [h2]
    exact ih (ni + 1) false _

/-- **C69 fails (flag).**  The solver never reports failure: for the operator 0 every iteration limit is exhausted, the answer is the first guess
with the whole right-hand side as residual, and the flag is the one of success. -/
theorem C69_flag_fails (n : Nat) : ∃ a, gcrot oneDim (fun x : ℝ => 0 * x) id 20 20 (n + 1) [] 1 0 (1 / 2) = some a ∧ a.flag = 0 ∧
    ‖1 - 0 * a.x‖ = 1 ∧ ¬ (1 : ℝ) ≤ 1 / 2 * ‖(1 : ℝ)‖ := by
  exact ⟨_, by rw [gcrot, if_neg (by simp)]; simp only [Nat.add_eq_zero_iff, one_ne_zero, and_false, if_false]; rfl, rfl, by simp, by norm_num⟩

/-- One call from scratch solves `a x = 1` in one inner iteration. -/
theorem fresh (a : ℝ) (ha : a ≠ 0) (n : Nat) :
    gcrot oneDim (fun x : ℝ => a * x) id 20 20 (n + 2) [] 1 0 (1 / 4) = some ⟨a⁻¹, 0, 1, 0, [(some 1, a⁻¹), (none, a⁻¹)]⟩ := by
  rw [gcrot, if_neg (by simp)]
  simp only [Nat.add_eq_zero_iff, OfNat.ofNat_ne_zero, and_false, if_false, reorth, if_true, project, mul_zero, sub_zero]
  have e1 : mainLoop oneDim (fun x => a * x) id 1 (1 / 4) 20 20 (n + 2) true 0 ⟨0, 1, [], 0⟩ = (⟨a⁻¹, 0, [(1, a⁻¹)], 1⟩, 0) := by
    rw [mainLoop]
    simp only [norm_one, if_neg (show ¬ ((1 : ℝ) ≤ 1 / 4 * 1 ∧ (true = false ∨ ([] : List (ℝ × ℝ)) ≠ [])) by norm_num),
      if_neg (show ¬ (1 : ℝ) ≤ 1 / 4 * 1 by norm_num)]
    have h1 := one_dim_step a 1 (1 / 4 * 1 / 1) [] one_ne_zero (Or.inl rfl) 39
    rw [norm_one, if_pos rfl] at h1
    simp only [List.map_nil, List.length_nil]
    rw [show 20 + (20 - 0) = 39 + 1 from rfl, h1]
    have h2 : outerStep oneDim 20 (⟨0, 1, [], 0⟩ : St ℝ) 1 ⟨[|(1 : ℝ)|⁻¹ * 1, 0], [|(1 : ℝ)|⁻¹ * 1], [[]], [[a, 0]]⟩ = ⟨a⁻¹, 0, [(1, a⁻¹)], 1⟩ := by
      simp [outerStep, oneDim, comb, dropOldest, ha]
    rw [h2, mainLoop]
    simp [ha]
  rw [e1]
  simp

/-- **C69 fails (history).**  The vectors kept from a call with one operator spoil the next call with another: from scratch `x / 2 = 1` is
solved in one iteration, but after the call that solved `x = 1` it is never solved, for any iteration limit; the answer is 1 with the
residual 1/2, twice the tolerance, and the flag is the one of success. -/
theorem C69_stale_fails (n : Nat) : ∃ first second, gcrot oneDim (fun x : ℝ => 1 * x) id 20 20 (n + 2) [] 1 0 (1 / 4) = some first ∧
    gcrot oneDim (fun x : ℝ => 1 / 2 * x) id 20 20 (n + 2) first.kept 1 0 (1 / 4) = some second ∧
    second.x = 1 ∧ ‖1 - 1 / 2 * second.x‖ = 1 / 2 ∧ second.flag = 0 ∧
    ∃ scratch, gcrot oneDim (fun x : ℝ => 1 / 2 * x) id 20 20 (n + 2) [] 1 0 (1 / 4) = some scratch ∧ 1 - 1 / 2 * scratch.x = 0 := by
  have hre : reorth oneDim (fun x : ℝ => 1 / 2 * x) [(some 1, 1⁻¹), (none, 1⁻¹)] = [(1, 1)] := by
    simp [reorth, filled, oneDim, argmaxAbs, backSub]
    norm_num
  have hpr : project [((1 : ℝ), (1 : ℝ))] (0, 1 - 1 / 2 * 0) = (1, 0) := by simp [project]
  obtain ⟨be', ni', hx⟩ : ∃ be' ni', mainLoop oneDim (fun x : ℝ => 1 / 2 * x) id 1 (1 / 4) 20 20 (n + 2) true 0 ⟨1, 0, [(1, 1)], 0⟩
      = (⟨1, 1 - 1 / 2 * 1, [(1, 1)], ni'⟩, be') := by
    rw [mainLoop]
    have c1 : ‖(0 : ℝ)‖ ≤ 1 / 4 * ‖(1 : ℝ)‖ ∧ (true = false ∨ [((1 : ℝ), (1 : ℝ))] ≠ []) := by constructor <;> simp
    have c2 : ¬ ‖(1 : ℝ) - 1 / 2 * 1‖ ≤ 1 / 4 * ‖(1 : ℝ)‖ := by norm_num
    simp only [if_pos c1, if_neg c2]
    have hr0 : (1 : ℝ) - 1 / 2 * 1 ≠ 0 := by norm_num
    have h1 := one_dim_step (1 / 2) (1 - 1 / 2 * 1) (1 / 4 * ‖(1 : ℝ)‖ / ‖(1 : ℝ) - 1 / 2 * 1‖) [1] hr0 (Or.inr rfl) 38
    simp only [List.map_cons, List.map_nil, List.length_singleton]
    rw [show 20 + (20 - 1) = 38 + 1 from rfl, h1, if_neg (by simp)]
    have h2 : ∀ v : ℝ, outerStep oneDim 20 (⟨1, 1 - 1 / 2 * 1, [(1, 1)], 0⟩ : St ℝ) ‖(1 : ℝ) - 1 / 2 * 1‖ ⟨[v, 0], [v], [[1 / 2 * v]], [[0, 0]]⟩
        = ⟨1, 1 - 1 / 2 * 1, [(1, 1)], 0 + 1⟩ := by
      intro v
      simp [outerStep, oneDim, comb]
    rw [h2]
    exact stuck (1 / 2) 1 (1 - 1 / 2 * 1) 1 1 (1 / 4) (0 + 1) (by norm_num) (by norm_num) (n + 1) false ‖(1 : ℝ) - 1 / 2 * 1‖
  have hg : gcrot oneDim (fun x : ℝ => 1 / 2 * x) id 20 20 (n + 2) [(some 1, 1⁻¹), (none, 1⁻¹)] 1 0 (1 / 4)
      = some ⟨1, be', ni', 0, [(some 1, 1), (none, 1)]⟩ := by
    rw [gcrot, if_neg (by simp)]
    simp only [Nat.add_eq_zero_iff, OfNat.ofNat_ne_zero, and_false, if_false, hre, hpr, hx]
    rfl
  exact ⟨_, _, fresh 1 one_ne_zero n, hg, rfl, by norm_num, rfl, _, fresh (1 / 2) (by norm_num) n, by norm_num⟩

/-- **C69 fails (parallel runs).**  All norms and products are those of the local part of the vectors.  Two processes with the same operator
on their parts, one of which starts from its solution, make different numbers of inner iterations, hence of collective calls of the
operator. -/
theorem C69_local_norm_fails (n : Nat) : ∃ here there, gcrot oneDim (fun x : ℝ => 1 * x) id 20 20 (n + 2) [] 1 1 (1 / 4) = some here ∧
    gcrot oneDim (fun x : ℝ => 1 * x) id 20 20 (n + 2) [] 1 0 (1 / 4) = some there ∧ here.niter = 0 ∧ there.niter = 1 := by
  refine ⟨⟨1, 0, 0, 0, [(none, 1)]⟩, _, ?_, fresh 1 one_ne_zero n, rfl, rfl⟩
  rw [gcrot, if_neg (by simp)]
  simp [reorth, project, mainLoop]

/-! ## The hypotheses are met -/

theorem argmaxAbs_spec : ∀ (C : List ℝ), C ≠ [] → argmaxAbs C < C.length ∧ ∀ c ∈ C, |c| ≤ |C.getD (argmaxAbs C) 0| := by
  intro C
  induction C with
  | nil => intro h; exact absurd rfl h
  | cons a l ih =>
    intro _
    cases l with
    | nil => simp [argmaxAbs]
    | cons b l =>
      have := ih (by simp)
      rw [argmaxAbs]
      split
      · rename_i hgt
        refine ⟨by simpa using this.1, ?_⟩
        intro c hc
        rw [List.getD_cons_succ]
        rcases List.mem_cons.mp hc with rfl | hc
        · exact le_of_lt hgt
        · exact this.2 c hc
      · rename_i hgt
        refine ⟨by simp, ?_⟩
        intro c hc
        rw [List.getD_cons_zero]
        rcases List.mem_cons.mp hc with rfl | hc
        · exact le_rfl
        · exact (this.2 c hc).trans (not_lt.mp hgt)

/-- The one-dimensional factorisation meets `QrSpec`. -/
theorem oneDim_qr (C : List ℝ) (h : C ≠ []) : QrSpec C (oneDim.qrp C).1 (oneDim.qrp C).2.1 (oneDim.qrp C).2.2 := by
  have hs := argmaxAbs_spec C h
  refine ⟨by simp [oneDim], fun j _ => hs.1, ?_, ?_, ?_⟩
  · have := hs.1
    simp only [oneDim, List.length_singleton]
    omega
  · intro j hj
    have : j = 0 := by simpa [oneDim] using hj
    subst this
    simp [oneDim]
  · rintro ⟨c, hc, hc0⟩ h0
    have h1 := hs.2 c hc
    have h2 : C.getD (argmaxAbs C) 0 = 0 := by simpa [oneDim] using h0
    rw [h2, abs_zero] at h1
    exact hc0 (abs_nonpos_iff.mp h1)

/-- Kept vectors of an operator, one with its image and one without. -/
example : KeptOk (fun x : ℝ => 2 * x) [(some 6, 3), (none, 1)] :=
  ⟨by simp; norm_num, fun _ => ⟨(none, 1), by simp, by norm_num⟩⟩

/-- The call `fresh` meets the hypotheses of `C69_solution`, `C69_reported` and `C69_kept` for the operator "times 3". -/
example : ∃ a, gcrot oneDim ((3 : ℝ) • (LinearMap.id : ℝ →ₗ[ℝ] ℝ)) id 20 20 2 [] 1 0 (1 / 4) = some a ∧
    a.beta ≤ 1 / 4 * ‖(1 : ℝ)‖ ∧ ‖(1 : ℝ) - ((3 : ℝ) • (LinearMap.id : ℝ →ₗ[ℝ] ℝ)) a.x‖ ≤ a.beta ∧
    KeptOk ((3 : ℝ) • (LinearMap.id : ℝ →ₗ[ℝ] ℝ)) a.kept := by
  have hf : (fun x : ℝ => 3 * x) = ((3 : ℝ) • (LinearMap.id : ℝ →ₗ[ℝ] ℝ)) := by funext x; simp
  have h := fresh 3 (by norm_num) 0
  rw [hf] at h
  have hk : KeptOk ((3 : ℝ) • (LinearMap.id : ℝ →ₗ[ℝ] ℝ)) [] := ⟨by simp, by simp⟩
  exact ⟨_, h, by norm_num, (C69_reported _ _ _ _ _ _ _ _ _ _ _ oneDim_qr hk one_ne_zero h).1,
    C69_kept _ _ _ _ _ _ _ _ _ _ _ oneDim_qr hk h (Or.inl (by simp))⟩

end WxVerif.Props.Gcrot
