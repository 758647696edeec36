import Verif.Lemmas.KrylovLowSync

/-!
# The exponential solvers with few global reductions (C76)
-/

namespace WxVerif.Props.KrylovLowSync

open WxVerif.Krylov.LowSync
open WxVerif.Krylov (setV)
open WxVerif.Spec.Arnoldi

variable {W : Type*} [AddCommGroup W] [Module ℝ W] {B : LinearMap.BilinForm ℝ W} {T : W →ₗ[ℝ] W} {v : W} {q : Nat → W}
  {h : Nat → Nat → ℝ} {m : Nat}

/-- the memory holds the factorization: `β` and the start vector, `m` columns of the matrix and `m + 1` rows of the basis -/
def Holds (B : LinearMap.BilinForm ℝ W) (v : W) (q : Nat → W) (h : Nat → Nat → ℝ) (m : Nat) (s : Mem W) : Prop :=
  s.j = m ∧ s.happy = false ∧ s.beta = Real.sqrt (B v v) ∧ (∀ i ≤ m, s.V i = q i) ∧
  (∀ a b, b < m → a ≤ b + 1 → s.H a b = h a b) ∧ (∀ a b, b < m → b + 1 < a → s.H a b = 0) ∧ (∀ a, a ≠ 0 → s.H a m = 0)

theorem holds_of_inv (hm : 0 < m) (s : Mem W) (hn : s.normed = true) (hi : Inv q h (Real.sqrt (B v v)) m 1 s) : Holds B v q h m s := by
  refine ⟨hi.j, hi.happy, hi.beta hm, ?_, ?_, hi.zero, fun a ha => hi.frame a m le_rfl ha⟩
  · intro i hi'
    rcases Nat.lt_or_ge i m with h1 | h1
    · exact hi.rows i h1
    · have : i = m := by omega
      subst this
      rw [hi.last, one_smul]
  · intro a b hb hab
    rcases Nat.lt_or_ge a (b + 1) with h1 | h1
    · exact hi.upper a b hb (by omega)
    · have e : a = b + 1 := by omega
      subst e
      rcases Nat.lt_or_ge (b + 1) m with h2 | h2
      · exact hi.lower b h2
      · have e2 : b + 1 = m := by omega
        have := (hi.normed hn).2.2
        rw [← e2] at this
        simpa using this

/-- **C76** (`cwy_1s`, `icwy_1s`, `pmex_1s`): without a breakdown, the solvers with one reduction per vector and delayed
    normalization hold the Arnoldi factorization of the operator at the end of a sub-step, whatever increasing sizes the step control
    went through and whatever was in memory. -/
theorem C76_one_reduction (hf : Factorization B T v q h m) (co : Corr) (tol : ℝ) (htol1 : tol ≤ 1) (hb : tol ≤ Real.sqrt (B v v))
    (hs : ∀ j < m, tol ≤ h (j + 1) j) (mmax : Nat) (hmm : m ≤ mmax) (ms : List Nat) (hms : (0 :: ms).Pairwise (· < ·))
    (hlast : ms.getLast? = some m) (s0 : Mem W) (h0 : s0.mats = Mats.init) :
    ∃ s, oneSyncRun co B B T tol mmax ms v s0 = some s ∧ s.mats = Mats.init ∧ Holds B v q h m s := by
  have hm : 0 < m := by
    rw [List.pairwise_cons] at hms
    exact hms.1 m (List.mem_of_getLast? hlast)
  obtain ⟨s, e1, e2, e3⟩ := sizes_inv (m := m) (pass (fun _ => oneSyncStep co B T tol mmax) B) (Real.sqrt (B v v))
    (fun k m' s hk hm' hr => oneSync_pass hf co tol mmax hmm htol1 hb hs k m' hk hm' s hr) ms 0 (start v s0) hms hlast
    ⟨_, start_inv hf s0 h0, Or.inl rfl⟩
  exact ⟨s, e1, e3.mats, holds_of_inv hm s e2 e3⟩

/-- **C76** (`cwy_ne1s`, `icwy_ne1s`, `pmex_ne1s`): the same with the estimated norm. -/
theorem C76_one_reduction_estimate (hf : Factorization B T v q h m) (co : Corr) (tol : ℝ)
    (hs : ∀ j < m, tol ≤ h (j + 1) j) (ms : List Nat) (hms : (0 :: ms).Pairwise (· < ·))
    (hlast : ms.getLast? = some m) (s0 : Mem W) (h0 : s0.mats = Mats.init) :
    ∃ s, estSyncRun co B B T tol ms v s0 = some s ∧ s.mats = Mats.init ∧ Holds B v q h m s := by
  have hm : 0 < m := by
    rw [List.pairwise_cons] at hms
    exact hms.1 m (List.mem_of_getLast? hlast)
  obtain ⟨s, e1, e2, e3⟩ := sizes_inv (m := m) (pass (estSyncStep co B T tol) B) (Real.sqrt (B v v))
    (fun k m' s hk hm' hr => estSync_pass hf co tol hs k m' hk hm' s hr) ms 0 (start v s0) hms hlast
    ⟨_, start_inv hf s0 h0, Or.inl rfl⟩
  exact ⟨s, e1, e3.mats, holds_of_inv hm s e2 e3⟩

/-- **C76** (`cwy_ne`, `icwy_ne`): the same with the estimated norm and immediate normalization; the branch of `cwy_ne` with the
    misspelt names is never entered. -/
theorem C76_estimate (hB : IsInner B) (hf : Factorization B T v q h m) (co : Corr) (tol : ℝ)
    (hs : ∀ j < m, tol ≤ h (j + 1) j) (ms : List Nat) (hms : (0 :: ms).Pairwise (· < ·))
    (hlast : ms.getLast? = some m) (s0 : Mem W) (h0 : s0.mats = Mats.init) :
    ∃ s, normEstRun co B T tol ms v s0 = some s ∧ s.mats = Mats.init ∧ Holds B v q h m s := by
  obtain ⟨s, e1, e3⟩ := sizes_invN (m := m) (fun m => loop (normEstStep co B T tol) m m) (Real.sqrt (B v v))
    (fun k m' s hk hm' hr => loop_inv (normEstStep co B T tol) m' (InvN q h (Real.sqrt (B v v))) (fun k s hi => ⟨hi.j, hi.happy⟩)
      (fun l hl t ht => normEst_inv hB hf co tol hs l (by omega) t _ ht) m' k s hr hk.le (by omega))
    ms 0 (startNormed B v s0) hms hlast (startNormed_inv hf s0 h0)
  exact ⟨s, e1, e3.mats, e3.j, e3.happy, e3.beta, e3.rows, e3.cols, e3.zero, fun a _ => e3.frame a m le_rfl⟩

/-! ## The same update as `pmex` -/

/-- two memories that hold the same factorization give the same update -/
theorem update_congr (tau : ℝ) (s t : Mem W) (hm : 0 < m) (hs : Holds B v q h m s) (ht : Holds B v q h m t) :
    update tau s = update tau t := by
  obtain ⟨s1, s2, s3, s4, s5, s6, s7⟩ := hs
  obtain ⟨t1, t2, t3, t4, t5, t6, t7⟩ := ht
  rcases s with ⟨sV, sH, sM, sB, sj, sh, sn, se⟩
  rcases t with ⟨tV, tH, tM, tB, tj, th, tn, te⟩
  simp only at s1 t1 s3 t3 s4 t4 s5 t5 s6 t6 s7 t7
  subst s1
  subst t1
  have hE : expArg (⟨sV, sH, sM, sB, tj, sh, sn, se⟩ : Mem W) = expArg (⟨tV, tH, tM, tB, tj, th, tn, te⟩ : Mem W) := by
    funext a b
    unfold expArg
    simp only
    split_ifs with h1 h2
    · rfl
    · rfl
    · have hb1 : (b : Nat) < tj + 1 := b.2
      rcases Nat.lt_or_ge b tj with h3 | h3
      · rcases Nat.lt_or_ge (b + 1 : Nat) a with h4 | h4
        · rw [s6 _ _ h3 h4, t6 _ _ h3 h4]
        · rw [s5 _ _ h3 h4, t5 _ _ h3 h4]
      · have e : (b : Nat) = tj := by omega
        have ha : (a : Nat) ≠ 0 := fun h0 => h1 ⟨e, h0⟩
        rw [e, s7 _ ha, t7 _ ha]
  unfold update
  simp only
  rw [hE, s3, t3]
  congr 1
  apply Finset.sum_congr rfl
  intro k _
  have := k.2
  rw [s4 _ (by omega), t4 _ (by omega)]

section inner
variable {X : Type*} [NormedAddCommGroup X] [InnerProductSpace ℝ X]

/-- the memory of `pmex` as a memory of these solvers -/
noncomputable def lift (v : X) (p : WxVerif.Krylov.Mem X) : Mem X where
  V := p.V
  H := p.H
  mats := Mats.init
  beta := ‖v‖
  j := p.j
  happy := p.happy
  normed := true
  est := 0

theorem update_lift (tau : ℝ) (v : X) (p : WxVerif.Krylov.Mem X) : update tau (lift v p) = WxVerif.Krylov.kiopsUpdate tau v p := rfl

/-- what a pass of `pmex` keeps: the entries below the diagonal are at least the tolerance -/
theorem pmex_sub (T : X → X) (tol : ℝ) (m : Nat) (fuel : Nat) : ∀ s : WxVerif.Krylov.Mem X, s.happy = false →
    (∀ i < s.j, tol ≤ s.H (i + 1) i) → (WxVerif.Krylov.krylovLoop (WxVerif.Krylov.pmexStep T tol) m fuel s).happy = false →
    m ≤ s.j + fuel → s.j ≤ m →
    (WxVerif.Krylov.krylovLoop (WxVerif.Krylov.pmexStep T tol) m fuel s).j = m ∧
    ∀ i < m, tol ≤ (WxVerif.Krylov.krylovLoop (WxVerif.Krylov.pmexStep T tol) m fuel s).H (i + 1) i := by
  induction fuel with
  | zero =>
    intro s h1 h2 h3 h4 h5
    have : s.j = m := by omega
    subst this
    exact ⟨rfl, h2⟩
  | succ n ih =>
    intro s h1 h2 h3 h4 h5
    unfold WxVerif.Krylov.krylovLoop at h3 ⊢
    by_cases hj : s.j < m
    · rw [if_pos ⟨hj, h1⟩] at h3 ⊢
      have hstep : (WxVerif.Krylov.pmexStep T tol s).happy = false := by
        by_contra hne
        have hne' : (WxVerif.Krylov.pmexStep T tol s).happy = true := by simpa using hne
        have : WxVerif.Krylov.krylovLoop (WxVerif.Krylov.pmexStep T tol) m n (WxVerif.Krylov.pmexStep T tol s) =
            WxVerif.Krylov.pmexStep T tol s := by
          cases n with
          | zero => rfl
          | succ n => unfold WxVerif.Krylov.krylovLoop; rw [if_neg (by rw [hne']; simp)]
        rw [this, hne'] at h3
        exact absurd h3 (by simp)
      have hjj : (WxVerif.Krylov.pmexStep T tol s).j = s.j + 1 := by
        unfold WxVerif.Krylov.pmexStep
        simp only
        split_ifs <;> rfl
      refine ih _ hstep ?_ h3 (by omega) (by omega)
      intro i hi
      rw [hjj] at hi
      revert hstep
      unfold WxVerif.Krylov.pmexStep
      simp only
      split_ifs with c1 c2 c2
      · simp
      · intro _
        simp only
        rcases Nat.lt_or_ge i s.j with h6 | h6
        · rw [if_neg (by omega), if_neg (by omega)]; exact h2 i h6
        · have : i = s.j := by omega
          subst this
          rw [if_neg (by omega), if_pos ⟨rfl, rfl⟩]; push Not at c2; exact c2
      · simp
      · intro _
        simp only
        rcases Nat.lt_or_ge i s.j with h6 | h6
        · rw [if_neg (by omega), if_neg (by omega)]; exact h2 i h6
        · have : i = s.j := by omega
          subst this
          rw [if_neg (by omega), if_pos ⟨rfl, rfl⟩]; push Not at c2; exact c2
    · have : s.j = m := by omega
      rw [if_neg (by omega)]
      exact ⟨this, this ▸ h2⟩

/-- without a breakdown `pmex` computes the Arnoldi factorization -/
theorem pmex_factorization (T : X →ₗ[ℝ] X) (tol : ℝ) (htol : 0 < tol) (m : Nat) (v : X) (hv : v ≠ 0) (p0 p : WxVerif.Krylov.Mem X)
    (hN : ∀ a b, p0.N a b = 0) (hp : WxVerif.Krylov.pmexRun T tol m v p0 = p) (hh : p.happy = false) :
    Factorization (innerₗ X) T v p.V p.H m ∧ (∀ j < m, tol ≤ p.H (j + 1) j) ∧ Holds (innerₗ X) v p.V p.H m (lift v p) := by
  have hr := WxVerif.Props.Pmex.pmexRun_rel T tol htol m v hv p0 hN
  rw [hp] at hr
  have hsub := pmex_sub T tol m m (WxVerif.Krylov.begin true v p0) rfl (fun i hi => absurd hi (by simp [WxVerif.Krylov.begin]))
    (by change (WxVerif.Krylov.pmexRun T tol m v p0).happy = false; rw [hp]; exact hh) (by omega) (by simp [WxVerif.Krylov.begin])
  change (WxVerif.Krylov.pmexRun T tol m v p0).j = m ∧ ∀ i < m, tol ≤ (WxVerif.Krylov.pmexRun T tol m v p0).H (i + 1) i at hsub
  rw [hp] at hsub
  obtain ⟨hj, hs⟩ := hsub
  have hn : (0 : ℝ) < ‖v‖ := norm_pos_iff.2 hv
  have hb : Real.sqrt ((innerₗ X) v v) = ‖v‖ := by
    rw [innerₗ_apply_apply, real_inner_self_eq_norm_sq]; exact Real.sqrt_sq hn.le
  refine ⟨⟨?_, ?_, ?_, ?_, fun j hj' => lt_of_lt_of_le htol (hs j hj')⟩, hs, hj, hh, hb.symm, fun _ _ => rfl, fun _ _ _ _ => rfl,
    fun a b _ hab => hr.below a b hab, fun a _ => hr.frame a m (by omega)⟩
  · rw [innerₗ_apply_apply, real_inner_self_eq_norm_sq]; positivity
  · rw [hb, hr.v0, smul_smul, mul_inv_cancel₀ hn.ne', one_smul]
  · intro i hi k hk
    have := hr.ortho
    rw [hh, hj] at this
    exact this i (by simp only [Bool.false_eq_true, if_false]; omega) k (by simp only [Bool.false_eq_true, if_false]; omega)
  · intro j hj'
    exact hr.rel j (by rcases Nat.lt_or_ge (j + 1) p.j with h1 | h1; exact Or.inl h1; exact Or.inr ⟨by omega, hh⟩)

/-- **C76**: without a breakdown, the eight solvers with full orthogonalization give exactly the update of `pmex`, whatever sizes the
    step control went through on the way. -/
theorem C76_same_update (T : X →ₗ[ℝ] X) (tol : ℝ) (htol : 0 < tol) (htol1 : tol ≤ 1) (v : X) (hv : tol ≤ ‖v‖) (m mmax : Nat)
    (hmm : m ≤ mmax) (p0 p : WxVerif.Krylov.Mem X) (hN : ∀ a b, p0.N a b = 0) (hp : WxVerif.Krylov.pmexRun T tol m v p0 = p)
    (hh : p.happy = false) (ms : List Nat) (hms : (0 :: ms).Pairwise (· < ·)) (hlast : ms.getLast? = some m) (s0 : Mem X)
    (h0 : s0.mats = Mats.init) (co : Corr) (tau : ℝ) :
    (oneSyncRun co (innerₗ X) (innerₗ X) T tol mmax ms v s0).map (update tau) = some (WxVerif.Krylov.pmexUpdate tau v p) ∧
    (estSyncRun co (innerₗ X) (innerₗ X) T tol ms v s0).map (update tau) = some (WxVerif.Krylov.pmexUpdate tau v p) ∧
    (normEstRun co (innerₗ X) T tol ms v s0).map (update tau) = some (WxVerif.Krylov.pmexUpdate tau v p) := by
  have hm : 0 < m := by
    rw [List.pairwise_cons] at hms
    exact hms.1 m (List.mem_of_getLast? hlast)
  have hv0 : v ≠ 0 := by
    rintro rfl
    rw [norm_zero] at hv
    linarith
  obtain ⟨hf, hs, hl⟩ := pmex_factorization T tol htol m v hv0 p0 p hN hp hh
  have hb : tol ≤ Real.sqrt ((innerₗ X) v v) := by
    rw [← hl.2.2.1]; exact hv
  rw [WxVerif.Props.Krylov.pmexUpdate_eq, ← update_lift]
  obtain ⟨s1, e1, _, g1⟩ := C76_one_reduction hf co tol htol1 hb hs mmax hmm ms hms hlast s0 h0
  obtain ⟨s2, e2, _, g2⟩ := C76_one_reduction_estimate hf co tol hs ms hms hlast s0 h0
  obtain ⟨s3, e3, _, g3⟩ := C76_estimate ⟨fun x y => real_inner_comm y x, fun x hx => real_inner_self_pos.2 hx⟩ hf co tol hs ms hms hlast s0 h0
  rw [e1, e2, e3]
  exact ⟨congrArg some (update_congr tau _ _ hm g1 hl), congrArg some (update_congr tau _ _ hm g2 hl),
    congrArg some (update_congr tau _ _ hm g3 hl)⟩

end inner

/-! ## Breakdown -/

theorem sizes_append (P : Nat → Mem W → Option (Mem W)) (m : Nat) : ∀ (ms : List Nat) (s : Mem W), ms ≠ [] →
    sizes P (ms ++ [m]) s = (sizes P ms s).bind fun s' => P m (rejected s') := by
  intro ms
  induction ms with
  | nil => intro s h; exact absurd rfl h
  | cons a ms ih =>
    intro s _
    cases ms with
    | nil => rfl
    | cons b ms =>
      have : a :: b :: ms ++ [m] = a :: b :: (ms ++ [m]) := rfl
      rw [this, sizes, sizes, Option.bind_assoc]
      congr 1
      funext s'
      exact ih (rejected s') (by simp)

/-- the memory before the last pass -/
theorem before_last (hf : Factorization B T v q h m) (P : Nat → Mem W → Option (Mem W))
    (hP : ∀ k m' s, k < m' → m' ≤ m → Ready q h (Real.sqrt (B v v)) k s →
      ∃ s', P m' s = some s' ∧ s'.normed = true ∧ Inv q h (Real.sqrt (B v v)) m' 1 s')
    (hPm : ∀ l m', l ≤ m → m' ≤ l → 0 < m' → m' ≤ m) (ms : List Nat) (hms : (0 :: ms).Pairwise (· < ·)) (hle : ∀ a ∈ ms, a ≤ m)
    (n : Nat) (s0 : Mem W) (h0 : s0.mats = Mats.init) :
    ∃ l ≤ m, ∃ t, Ready q h (Real.sqrt (B v v)) l t ∧ sizes P (ms ++ [n]) (start v s0) = P n t := by
  by_cases hne : ms = []
  · subst hne
    exact ⟨0, Nat.zero_le _, start v s0, ⟨_, start_inv hf s0 h0, Or.inl rfl⟩, rfl⟩
  · obtain ⟨l, hl⟩ : ∃ l, ms.getLast? = some l := by
      rcases h1 : ms.getLast? with _ | l
      · exact absurd (List.getLast?_eq_none_iff.1 h1) hne
      · exact ⟨l, rfl⟩
    have hlm := hle l (List.mem_of_getLast? hl)
    obtain ⟨s, e1, e2, e3⟩ := sizes_inv (m := l) P (Real.sqrt (B v v)) (fun k m' s hk hm' hr => hP k m' s hk (by omega) hr) ms 0 (start v s0)
      hms hl ⟨_, start_inv hf s0 h0, Or.inl rfl⟩
    exact ⟨l, hlm, rejected s, ⟨1, rejected_inv _ _ _ _ e3, Or.inr e2⟩, by rw [sizes_append _ _ _ _ hne, e1]; rfl⟩

theorem rescale_ready (be : ℝ) (l : Nat) (t : Mem W) (hr : Ready q h be l t) : ∃ c, Inv q h be l c (rescale { t with est := 0 }) := by
  obtain ⟨c, hi, hz⟩ := hr
  have e : rescale { t with est := (0 : ℝ) } = { t with est := 0 } := by
    unfold rescale
    simp only
    rw [if_neg (by rintro ⟨h1, h2⟩; rcases hz with h3 | h3; · rw [hi.j] at h1; omega
                   · rw [h3] at h2; exact absurd h2 (by simp)), one_smul]
    congr 1
    funext x
    unfold setV
    split_ifs with hx
    · rw [hx]
    · rfl
  exact ⟨c, by rw [e]; exact { hi with }⟩

theorem loop_stop (step : Mem W → Option (Mem W)) (m fuel : Nat) (s : Mem W) (hs : m ≤ s.j ∨ s.happy = true) :
    loop step m fuel s = some s := by
  cases fuel with
  | zero => rfl
  | succ n => rw [loop, if_neg (by rintro ⟨h1, h2⟩; rcases hs with h3 | h3; omega; rw [h3] at h2; exact absurd h2 (by simp))]

section exact
variable {X : Type*} [NormedAddCommGroup X] [NormedSpace ℝ X] [CompleteSpace X]

/-- if the matrix in memory represents the operator on an invariant space, the update is the exact exponential -/
theorem update_exact (T : X →L[ℝ] X) (tau : ℝ) (v : X) (s : Mem X) (hj : 0 < s.j) (h0 : v = s.beta • s.V 0)
    (hb : ∀ b, b + 1 < s.j → s.H s.j b = 0)
    (hrel : ∀ i < s.j, T (s.V i) = ∑ k ∈ Finset.range s.j, s.H k i • s.V k) :
    update tau s = NormedSpace.exp (tau • T) v := by
  have hlast : ∀ b : Fin s.j, expArg s (Fin.last s.j) b.castSucc = 0 := by
    intro b
    have := b.2
    unfold expArg
    simp only [Fin.val_last, Fin.val_castSucc]
    rw [if_neg (by omega)]
    by_cases h1 : (b : Nat) + 1 = s.j
    · rw [if_pos ⟨trivial, h1⟩]
    · rw [if_neg (by tauto)]; exact hb b (by omega)
  have hin : ∀ a b : Fin s.j, expArg s a.castSucc b.castSucc = s.H a b := by
    intro a b
    have := a.2; have := b.2
    unfold expArg
    simp only [Fin.val_castSucc]
    rw [if_neg (by omega), if_neg (by omega)]
  have key : ∀ n : Nat, (expArg s ^ n) (Fin.last s.j) 0 = 0 ∧
      ∑ k : Fin s.j, (expArg s ^ n) k.castSucc 0 • s.V k = (T ^ n) (s.V 0) := by
    intro n
    induction n with
    | zero =>
      constructor
      · rw [pow_zero, Matrix.one_apply_ne]
        intro h
        have := congrArg Fin.val h
        simp at this
        omega
      · rw [Finset.sum_eq_single (⟨0, hj⟩ : Fin s.j)]
        · rw [pow_zero, show (⟨0, hj⟩ : Fin s.j).castSucc = 0 by ext; simp, Matrix.one_apply_eq]
          simp
        · intro b _ hb
          rw [pow_zero, Matrix.one_apply_ne, zero_smul]
          intro h
          apply hb
          ext
          have := congrArg Fin.val h
          simpa using this
        · simp
    | succ n ih =>
      obtain ⟨i1, i2⟩ := ih
      have hmul : ∀ a, (expArg s ^ (n + 1)) a 0 = ∑ b : Fin s.j, expArg s a b.castSucc * (expArg s ^ n) b.castSucc 0 := by
        intro a
        rw [pow_succ', Matrix.mul_apply, Fin.sum_univ_castSucc, i1, mul_zero, add_zero]
      constructor
      · rw [hmul]
        apply Finset.sum_eq_zero
        intro b _
        rw [hlast, zero_mul]
      · rw [pow_succ' T, ContinuousLinearMap.mul_apply, ← i2, map_sum]
        simp only [hmul, hin, Finset.sum_smul]
        rw [Finset.sum_comm]
        apply Finset.sum_congr rfl
        intro b _
        rw [map_smul, hrel b b.2, Finset.smul_sum, Finset.sum_range]
        apply Finset.sum_congr rfl
        intro k _
        rw [smul_smul, mul_comm]
  have h1 : HasSum (fun n : Nat => ∑ k : Fin s.j, ((tau ^ n / (n.factorial : ℝ)) * (expArg s ^ n) k.castSucc 0) • s.V k)
      (∑ k : Fin s.j, NormedSpace.exp (tau • expArg s) k.castSucc 0 • s.V k) :=
    hasSum_sum fun k _ => (WxVerif.Props.Krylov.matrix_exp_entry (expArg s) tau k.castSucc 0).smul_const (s.V k)
  have h2 : HasSum (fun n : Nat => ∑ k : Fin s.j, ((tau ^ n / (n.factorial : ℝ)) * (expArg s ^ n) k.castSucc 0) • s.V k)
      (NormedSpace.exp (tau • T) (s.V 0)) := by
    have := WxVerif.Props.Augmented.exp_apply_hasSum T tau (s.V 0)
    convert this using 2 with n
    rw [← (key n).2, Finset.smul_sum]
    simp only [smul_smul]
  unfold update
  simp only
  rw [h1.unique h2, h0, map_smul]


/-- **C76** (`cwy_ne1s`, `icwy_ne1s`, `pmex_ne1s`): when the Krylov space becomes invariant before the last vector of a pass, the
    breakdown is detected and the update is exactly the exponential of the operator on the start vector. -/
theorem C76_breakdown_exact_partial {B : LinearMap.BilinForm ℝ X} (T : X →L[ℝ] X) {v : X} {q : Nat → X} {h : Nat → Nat → ℝ} {k : Nat}
    (hf : Factorization B T v q h k) (g : Nat → ℝ) (hinv : T (q k) = ∑ i ∈ Finset.range (k + 1), g i • q i) (co : Corr) (tol : ℝ)
    (htol : 0 < tol) (hs : ∀ j < k, tol ≤ h (j + 1) j) (ms : List Nat) (hms : (0 :: ms).Pairwise (· < ·)) (hle : ∀ a ∈ ms, a ≤ k)
    (m : Nat) (hm : k + 1 < m) (s0 : Mem X) (h0 : s0.mats = Mats.init) :
    ∃ s, estSyncRun co B B T.toLinearMap tol (ms ++ [m]) v s0 = some s ∧ s.happy = true ∧ s.j = k + 1 ∧
      ∀ tau, update tau s = NormedSpace.exp (tau • T) v := by
  have hf' : Factorization B T.toLinearMap v q h k := hf
  obtain ⟨l, hl, t, hr, e⟩ := before_last hf' (pass (estSyncStep co B T.toLinearMap tol) B)
    (fun k m' s hk hm' hr => estSync_pass hf' co tol hs k m' hk hm' s hr) (fun _ _ _ _ _ => by omega) ms hms hle m s0 h0
  obtain ⟨c, hi⟩ := rescale_ready _ l t hr
  obtain ⟨t1, e1, c1, i1⟩ := loop_to (estSyncStep co B T.toLinearMap tol m) m k (by omega)
    (fun l t => ∃ c, Inv q h (Real.sqrt (B v v)) l c (rescale t)) (fun l t ht => ⟨ht.choose_spec.j, ht.choose_spec.happy⟩)
    (fun l hl t ht => by
      obtain ⟨c', i'⟩ := ht
      obtain ⟨t', e, n', i1, i2⟩ := estSync_inv hf' co tol m hs l hl (by omega) c' t i'
      exact ⟨t', e, _, i1 (by omega)⟩) m l { t with est := 0 } ⟨c, hi⟩ hl (by omega)
  obtain ⟨s', f1, f2, f3, f4, f5, f6, f7, f8⟩ := estSync_breakdown (B := B) (T := T.toLinearMap) co tol htol m k hm _ c1 t1 hf.orth g hinv i1
  have hlp : loop (estSyncStep co B T.toLinearMap tol m) m (l + m - k) t1 = some s' := by
    obtain ⟨n, hn⟩ : ∃ n, l + m - k = n + 1 := ⟨l + m - k - 1, by omega⟩
    rw [hn, loop, if_pos ⟨by have : t1.j = k := i1.j; omega, i1.happy⟩, f1]
    exact loop_stop _ _ _ _ (Or.inr f2)
  refine ⟨{ s' with normed := true }, ?_, f2, f3, ?_⟩
  · unfold estSyncRun
    rw [e]
    unfold pass
    rw [e1, hlp]
    simp only [Option.bind_some, finish, f2, if_true]
  · intro tau
    refine update_exact T tau v _ (by simp only; omega) ?_ ?_ ?_
    · simp only
      rw [f4, f5 0 (by omega)]; exact hf.first
    · intro b hb
      simp only at hb ⊢
      exact f8 _ _ (by omega) (by omega)
    · intro i hi
      simp only at hi ⊢
      rw [f3] at hi ⊢
      rw [f5 i (by omega)]
      rcases Nat.lt_or_ge i k with h1 | h1
      · rw [hf.rel i h1]
        have hsub : Finset.range (i + 2) ⊆ Finset.range (k + 1) := Finset.range_subset_range.2 (by omega)
        have e2 : ∑ a ∈ Finset.range (i + 2), h a i • q a = ∑ a ∈ Finset.range (i + 2), s'.H a i • s'.V a := by
          apply Finset.sum_congr rfl
          intro a ha
          have := Finset.mem_range.1 ha
          rw [f6 a i h1 (by omega), f5 a (by omega)]
        rw [e2]
        refine Finset.sum_subset hsub ?_
        intro a _ ha2
        rw [f8 a i (by omega) (by have := Finset.mem_range.not.1 ha2; omega), zero_smul]
      · have : i = k := by omega
        subst this
        rw [hinv]
        apply Finset.sum_congr rfl
        intro a ha
        have := Finset.mem_range.1 ha
        rw [f7 a (by omega), f5 a (by omega)]

end exact

/-- the vector that remains at a breakdown is zero -/
theorem remains_zero (k : Nat) (horth : ∀ i ≤ k, ∀ l ≤ k, B (q i) (q l) = if i = l then 1 else 0) (g : Nat → ℝ)
    (hinv : T (q k) = ∑ i ∈ Finset.range (k + 1), g i • q i) :
    T (q k) - ∑ i ∈ Finset.range (k + 1), B (q i) (T (q k)) • q i = 0 := by
  have hg : ∀ i ≤ k, B (q i) (T (q k)) = g i := by
    intro i hi'
    rw [hinv, map_sum, Finset.sum_eq_single i]
    · rw [map_smul, horth i hi' i hi', if_pos rfl]; simp
    · intro l hl hne
      have := Finset.mem_range.1 hl
      rw [map_smul, horth i hi' l (by omega), if_neg (Ne.symm hne), smul_zero]
    · intro hn; exact absurd (Finset.mem_range.2 (by omega)) hn
  rw [sub_eq_zero]
  conv_lhs => rw [hinv]
  apply Finset.sum_congr rfl
  intro i hi'
  rw [hg i (by have := Finset.mem_range.1 hi'; omega)]

/-- **C76**, what fails (`cwy_1s`, `icwy_1s`, `pmex_1s`): when the Krylov space becomes invariant, at any vector of a pass, the next
    normalization divides by zero and the pass has no result. -/
theorem C76_one_reduction_breakdown_fails {k : Nat} (hf : Factorization B T v q h k) (g : Nat → ℝ)
    (hinv : T (q k) = ∑ i ∈ Finset.range (k + 1), g i • q i) (co : Corr) (tol : ℝ) (htol1 : tol ≤ 1) (hb : tol ≤ Real.sqrt (B v v))
    (hs : ∀ j < k, tol ≤ h (j + 1) j) (mmax : Nat) (hmm : k ≤ mmax) (ms : List Nat) (hms : (0 :: ms).Pairwise (· < ·))
    (hle : ∀ a ∈ ms, a ≤ k) (m : Nat) (hm : k + 1 ≤ m) (s0 : Mem W) (h0 : s0.mats = Mats.init) :
    oneSyncRun co B B T tol mmax (ms ++ [m]) v s0 = none := by
  obtain ⟨l, hl, t, hr, e⟩ := before_last hf (pass (fun _ => oneSyncStep co B T tol mmax) B)
    (fun k m' s hk hm' hr => oneSync_pass hf co tol mmax hmm htol1 hb hs k m' hk hm' s hr) (fun _ _ _ _ _ => by omega) ms hms hle m s0 h0
  obtain ⟨c, hi, _⟩ := hr
  have hi0 : Inv q h (Real.sqrt (B v v)) l c { t with est := 0 } := { hi with }
  obtain ⟨t1, e1, c1, i1⟩ := loop_to (oneSyncStep co B T tol mmax) m k (by omega)
    (fun l t => ∃ c, Inv q h (Real.sqrt (B v v)) l c t) (fun l t ht => ⟨ht.choose_spec.j, ht.choose_spec.happy⟩)
    (fun l hl t ht => by
      obtain ⟨c', i'⟩ := ht
      obtain ⟨t', e, i''⟩ := oneSync_inv hf co tol mmax hmm htol1 hb hs l hl c' t i'
      exact ⟨t', e, _, i''⟩) m l { t with est := 0 } ⟨c, hi0⟩ hl (by omega)
  obtain ⟨p, p1, p2, p3, p4, p5, _, _, p7, p8, p9⟩ := lagged_eq (B := B) (q := q) co (some mmax) t1 t1.V (T (t1.V t1.j)) c1 i1.pos
    (fun hn => (i1.normed hn).1) i1.mats k i1.j (T (q k)) hf.orth i1.rows i1.last (by rw [i1.j, i1.last, map_smul])
  rw [remains_zero k hf.orth g hinv] at p3
  have hnt : ¬ p.nrm < tol := by
    rw [p7]
    push Not
    cases hn : t1.normed with
    | true => rw [(i1.normed hn).1]; exact htol1
    | false =>
      rcases Nat.eq_zero_or_pos k with h0 | h0
      · rw [(i1.zeroth h0).2]; exact hb
      · rw [i1.lag hn h0]
        have := hs (k - 1) (by omega)
        rwa [Nat.sub_add_cancel h0] at this
  unfold oneSyncRun
  rw [e]
  unfold pass
  rw [e1]
  obtain ⟨n, hn⟩ : ∃ n, l + m - k = n + 1 := ⟨l + m - k - 1, by omega⟩
  have hj : t1.j = k := i1.j
  rw [hn, loop, if_pos ⟨by omega, i1.happy⟩]
  set t2 : Mem W := { t1 with
    V := p.V, mats := p.mats, beta := p.beta, j := t1.j + 1, normed := false,
    H := fun a b => if b = t1.j ∧ a < t1.j + 1 then p.tmp a else p.H a b } with ht2
  have hstep : oneSyncStep co B T tol mmax t1 = some t2 := by
    unfold oneSyncStep
    rw [p1]
    simp only [Option.map_some, if_neg hnt, ht2]
  rw [hstep]
  simp only [Option.bind_some]
  have hz : t2.V t2.j = 0 := by
    change p.V (t1.j + 1) = 0
    rw [hj]; exact p3
  have hz2 : Real.sqrt (B (t2.V t2.j) (t2.V t2.j)) = 0 := by rw [hz]; simp
  have hh2 : t2.happy = false := i1.happy
  have hj2 : t2.j = k + 1 := by change t1.j + 1 = k + 1; omega
  rcases Nat.lt_or_ge (k + 1) m with h1 | h1
  · obtain ⟨n', hn'⟩ : ∃ n', n = n' + 1 := ⟨n - 1, by omega⟩
    rw [hn', loop, if_pos ⟨by omega, hh2⟩]
    have : oneSyncStep co B T tol mmax t2 = none := by
      unfold oneSyncStep lagged
      simp only
      rw [if_pos ⟨rfl, hz2⟩]
      rfl
    rw [this]
    rfl
  · have hm1 : m = k + 1 := by omega
    rw [loop_stop _ _ _ _ (Or.inl (by omega))]
    simp only [Option.bind_some, finish, hh2, Bool.false_eq_true, if_false]
    rw [hm1, ← hj2, if_pos hz2]

/-- **C76**, what fails (`cwy_ne1s`, `icwy_ne1s`, `pmex_ne1s`): when the Krylov space becomes invariant with the last vector of a pass,
    the breakdown is not looked for, and the pass has no result. -/
theorem C76_breakdown_last_fails {k : Nat} (hf : Factorization B T v q h k) (g : Nat → ℝ)
    (hinv : T (q k) = ∑ i ∈ Finset.range (k + 1), g i • q i) (co : Corr) (tol : ℝ)
    (hs : ∀ j < k, tol ≤ h (j + 1) j) (ms : List Nat) (hms : (0 :: ms).Pairwise (· < ·))
    (hle : ∀ a ∈ ms, a ≤ k) (s0 : Mem W) (h0 : s0.mats = Mats.init) :
    estSyncRun co B B T tol (ms ++ [k + 1]) v s0 = none := by
  obtain ⟨l, hl, t, hr, e⟩ := before_last hf (pass (estSyncStep co B T tol) B)
    (fun k m' s hk hm' hr => estSync_pass hf co tol hs k m' hk hm' s hr) (fun _ _ _ _ _ => by omega) ms hms hle (k + 1) s0 h0
  obtain ⟨c, hi⟩ := rescale_ready _ l t hr
  obtain ⟨t1, e1, c1, i1⟩ := loop_to (estSyncStep co B T tol (k + 1)) (k + 1) k (by omega)
    (fun l t => ∃ c, Inv q h (Real.sqrt (B v v)) l c (rescale t)) (fun l t ht => ⟨ht.choose_spec.j, ht.choose_spec.happy⟩)
    (fun l hl t ht => by
      obtain ⟨c', i'⟩ := ht
      obtain ⟨t', e, n', i1, i2⟩ := estSync_inv hf co tol (k + 1) hs l hl (by omega) c' t i'
      exact ⟨t', e, _, i1 (by omega)⟩) (k + 1) l { t with est := 0 } ⟨c, hi⟩ hl (by omega)
  have hj : t1.j = k := i1.j
  set es : ℝ := if 0 < t1.j ∧ t1.normed = false then t1.est else 1 with he
  have hlast : es • t1.V k = c1 • q k := by
    have := i1.last
    simp only [rescale] at this
    rw [hj, setV_self] at this
    rw [← this, he, hj]
  obtain ⟨p, p1, p2, p3, p4, p5, p6, p6', p7, p8, p9⟩ := lagged_eq (B := B) (q := q) co none t1 (setV t1.V t1.j (es • t1.V t1.j))
    (es • T (t1.V t1.j)) c1 i1.pos (fun hn => (i1.normed hn).1) i1.mats k i1.j (T (q k)) hf.orth i1.rows
    (by rw [hj, setV_self, hlast]) (by rw [← map_smul, hj, hlast, map_smul])
  rw [remains_zero k hf.orth g hinv] at p3
  unfold estSyncRun
  rw [e]
  unfold pass
  rw [e1]
  obtain ⟨n, hn⟩ : ∃ n, l + (k + 1) - k = n + 1 := ⟨l, by omega⟩
  rw [hn, loop, if_pos ⟨by omega, i1.happy⟩]
  have hstep : ∃ t2 : Mem W, estSyncStep co B T tol (k + 1) t1 = some t2 ∧ t2.V (k + 1) = 0 ∧ t2.j = k + 1 ∧ t2.happy = false := by
    refine ⟨{ t1 with
      V := p.V, H := fun a b => if b = t1.j ∧ a < t1.j + 1 then p.tmp a else p.H a b, mats := p.mats, beta := p.beta,
      j := t1.j + 1, normed := false }, by unfold estSyncStep; simp only; rw [← he, p1, Option.map_some, if_neg (by omega)], p3, ?_,
      i1.happy⟩
    change t1.j + 1 = k + 1; omega
  obtain ⟨t2, g1, g2, g3, g4⟩ := hstep
  rw [g1]
  simp only [Option.bind_some]
  rw [loop_stop _ _ _ _ (Or.inl (by omega))]
  simp only [Option.bind_some, finish, g4, Bool.false_eq_true, if_false, g2]
  rw [if_pos (by simp)]

/-- with an empty first column the update is the start vector -/
theorem update_col_zero (tau : ℝ) (s : Mem W) (hj : 0 < s.j) (hH : ∀ a, s.H a 0 = 0) : update tau s = s.beta • s.V 0 := by
  have hcol : ∀ a, expArg s a 0 = 0 := by
    intro a
    unfold expArg
    rw [if_neg (by simp only [Fin.val_zero]; omega)]
    split_ifs
    · rfl
    · exact hH a
  have hF : ∀ a, NormedSpace.exp (tau • expArg s) a 0 = if a = 0 then 1 else 0 := by
    intro a
    have h1 := WxVerif.Props.Krylov.matrix_exp_entry (expArg s) tau a 0
    refine h1.unique ?_
    have h2 := hasSum_single (f := fun i : Nat => (tau ^ i / (i.factorial : ℝ)) * (expArg s ^ i) a 0) 0 (by
      intro n hn
      obtain ⟨n', rfl⟩ : ∃ n', n = n' + 1 := ⟨n - 1, by omega⟩
      have hz : (expArg s ^ (n' + 1)) a 0 = 0 := by
        rw [pow_succ, Matrix.mul_apply]
        exact Finset.sum_eq_zero fun c _ => by rw [hcol, mul_zero]
      rw [hz, mul_zero])
    simp only [pow_zero, Nat.factorial_zero, Nat.cast_one, div_one, one_mul, Matrix.one_apply] at h2
    exact h2
  unfold update
  simp only [hF]
  congr 1
  rw [Finset.sum_eq_single (⟨0, hj⟩ : Fin s.j)]
  · rw [if_pos (by ext; simp), one_smul]
  · intro b _ hb
    rw [if_neg, zero_smul]
    intro h
    apply hb
    ext
    have := congrArg Fin.val h
    simpa using this
  · simp

/-- **C76**, what fails (`cwy_ne`, `icwy_ne`): at a breakdown the last column of the matrix stays empty; from an eigenvector of any
    eigenvalue the answer is the start vector itself. -/
theorem C76_estimate_breakdown_fails (hB : IsInner B) (lam : ℝ) (hv : v ≠ 0) (hT : T v = lam • v) (co : Corr) (tol : ℝ) (htol : 0 < tol)
    (m : Nat) (hm : 0 < m) (s0 : Mem W) (h0 : s0.mats = Mats.init) :
    ∃ s, normEstRun co B T tol [m] v s0 = some s ∧ ∀ tau, update tau s = v := by
  have hp := hB.pos v hv
  have hsq := Real.sqrt_pos.2 hp
  have hne := hsq.ne'
  set q0 : W := (Real.sqrt (B v v))⁻¹ • v with hq0
  have hone : B q0 q0 = 1 := by
    rw [hq0, map_smul, map_smul, LinearMap.smul_apply, smul_eq_mul, smul_eq_mul]
    field_simp
    rw [Real.sq_sqrt hp.le]
  have hi : InvN (fun _ => q0) (fun _ _ => 0) (Real.sqrt (B v v)) 0 (startNormed B v s0) := by
    refine { j := rfl, happy := rfl, mats := h0, rows := ?_, beta := rfl, cols := fun _ _ hb => absurd hb (by omega),
             zero := fun _ _ hb => absurd hb (by omega), frame := fun _ _ _ => rfl }
    intro i hi
    have : i = 0 := by omega
    subst this
    simp only [startNormed]
    rw [setV_self]
  have hTq : T q0 = lam • q0 := by rw [hq0, map_smul, hT, smul_comm]
  have hx : (0 : W) = T ((fun _ => q0) 0) - ∑ i ∈ Finset.range (0 + 1), B ((fun _ => q0) i) (T ((fun _ => q0) 0)) • (fun _ => q0) i := by
    simp only [zero_add, Finset.sum_range_one, hTq]
    rw [map_smul, hone, smul_eq_mul, mul_one, sub_self]
  obtain ⟨tmp, _, e⟩ := normEst_eq (q := fun _ => q0) (T := T) hB co tol 0 _ (startNormed B v s0) (fun i hi l hl => by
    have h1 : i = l := by omega
    rw [if_pos h1]; exact hone) hi 0 hx
  rw [if_pos (by simpa using htol)] at e
  obtain ⟨n, rfl⟩ : ∃ n, m = n + 1 := ⟨m - 1, by omega⟩
  refine ⟨{ startNormed B v s0 with V := setV (startNormed B v s0).V (0 + 1) 0, j := 0 + 1, happy := true }, ?_, ?_⟩
  · unfold normEstRun
    rw [sizes, loop, if_pos ⟨by simp [startNormed], rfl⟩, e]
    exact loop_stop _ _ _ _ (Or.inr rfl)
  · intro tau
    rw [update_col_zero tau _ (by simp) (fun a => rfl)]
    change Real.sqrt (B v v) • setV (setV s0.V 0 q0) (0 + 1) 0 0 = v
    rw [setV_lt _ _ _ _ (by omega), setV_self, hq0, smul_smul, mul_inv_cancel₀ hne, one_smul]

end WxVerif.Props.KrylovLowSync
