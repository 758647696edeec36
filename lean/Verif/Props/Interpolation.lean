import Verif.Lemmas.InterpCreate
import Mathlib.Tactic.FinCases

/-!
# C99: interpolation between the grids of the multigrid preconditioner
-/

namespace WxVerif.Props.Interpolation
open WxVerif.Interpolation Matrix

variable {gauss : Nat → Nat → ℝ} {la : Linalg} {t1 t2 grid : String} {n m : Nat} {b : Bool} {o d : Points}

/-- **On the plane, Lagrange interpolation reproduces polynomials in both directions**: if the values of a field in each element are those of a
polynomial, of degree below the number of points in each variable, then the result has the values of the same polynomial at the other points.
Velocities on the cubed sphere are excepted, see below. -/
theorem C99_exact_plane (hla : Exact la) (ho : basisPoints gauss t1 n b = .ok o) (hd : basisPoints gauss t2 m b = .ok d) (Do : Distinct o)
    (Dd : Distinct d) (hn : 0 < n) (hm : 0 < m) :
    ∃ it, create gauss la t1 n t2 m "lagrange" grid 2 b = .ok it ∧
      (∀ F : Fields, F.pts = o.count * o.count → ∃ G, call it F false = .ok G ∧ G.fields = F.fields ∧ G.elems = F.elems ∧
        ∀ i f, ¬ (grid = "cubed_sphere" ∧ (i = 1 ∨ i = 2)) → (∀ e, IsPoly2 o.count (f e)) → Samples2 o i f F → Samples2 d i f G) ∧
      ∀ F : Fields, F.pts = d.count * d.count → ∃ G, call it F true = .ok G ∧ G.fields = F.fields ∧ G.elems = F.elems ∧
        ∀ i f, ¬ (grid = "cubed_sphere" ∧ (i = 1 ∨ i = 2)) → i < F.fields → (∀ e, IsPoly2 d.count (f e)) → Samples2 d i f F → Samples2 o i f G := by
  obtain ⟨it, hit, hnd, _, hop, _⟩ := lagrange_create (ndim := 2) (grid := grid) hla ho hd Do Dd hn hm
  have h0 : ¬ Velocity grid 0 := by simp [Velocity]
  refine ⟨it, hit, ?_, ?_⟩
  · intro F hF
    refine ⟨_, call_forward (Or.inl hnd) (by rw [(hop 0 h0).1]; exact hF), rfl, rfl, ?_⟩
    intro i f hi hf hs
    refine ⟨by rw [(hop 0 h0).1]; rfl, ?_⟩
    intro e he a ha c hc
    show applyOp (opFor it false i) (F.val i) e (a * d.count + c) = _
    rw [(hop i hi).1]
    exact plane_exact (E := lagrangeTable o d) (P := IsPoly o.count) (lagrange_exact Do d) (poly2_x (hf e)) (poly2_y (hf e))
      (fun a ha b hb => hs.2 e he a ha b hb) ha hc
  · intro F hF
    have hpos : 0 < F.pts := by rw [hF]; exact Nat.mul_pos Dd.1 Dd.1
    obtain ⟨F', s, hc⟩ := call_back (it := it) (F := F) (Or.inl hnd) (by rw [(hop 0 h0).2]; exact hF) hpos
    refine ⟨_, hc, s.1, s.2.1, ?_⟩
    intro i f hi hlt hf hs
    refine ⟨by rw [(hop 0 h0).2]; rfl, ?_⟩
    intro e he a ha c hc
    have he' : e < F.elems := s.2.1 ▸ he
    show applyOp (opFor it true i) (F'.val i) e (a * o.count + c) = _
    rw [(hop i hi).2]
    refine plane_exact (E := lagrangeTable d o) (P := IsPoly d.count) (lagrange_exact Dd o) (poly2_x (hf e)) (poly2_y (hf e)) ?_ ha hc
    intro a ha b hb
    rw [s.2.2.2 i hlt e he' _ (by rw [hF]; exact pair_lt ha hb)]
    exact hs.2 e he' a ha b hb

/-- **In space, Lagrange interpolation reproduces polynomials in both directions**. -/
theorem C99_exact_space (hla : Exact la) (ho : basisPoints gauss t1 n b = .ok o) (hd : basisPoints gauss t2 m b = .ok d) (Do : Distinct o)
    (Dd : Distinct d) (hn : 0 < n) (hm : 0 < m) :
    ∃ it, create gauss la t1 n t2 m "lagrange" grid 3 b = .ok it ∧
      (∀ F : Fields, F.pts = o.count * o.count * o.count → ∃ G, call it F false = .ok G ∧ G.fields = F.fields ∧ G.elems = F.elems ∧
        ∀ i f, ¬ (grid = "cubed_sphere" ∧ (i = 1 ∨ i = 2)) → (∀ e, IsPoly3 o.count (f e)) → Samples3 o i f F → Samples3 d i f G) ∧
      ∀ F : Fields, F.pts = d.count * d.count * d.count → ∃ G, call it F true = .ok G ∧ G.fields = F.fields ∧ G.elems = F.elems ∧
        ∀ i f, ¬ (grid = "cubed_sphere" ∧ (i = 1 ∨ i = 2)) → i < F.fields → (∀ e, IsPoly3 d.count (f e)) → Samples3 d i f F → Samples3 o i f G := by
  obtain ⟨it, hit, hnd, _, hop, _⟩ := lagrange_create (ndim := 3) (grid := grid) hla ho hd Do Dd hn hm
  have h0 : ¬ Velocity grid 0 := by simp [Velocity]
  refine ⟨it, hit, ?_, ?_⟩
  · intro F hF
    refine ⟨_, call_forward (Or.inr hnd) (by rw [(hop 0 h0).1]; exact hF), rfl, rfl, ?_⟩
    intro i f hi hf hs
    refine ⟨by rw [(hop 0 h0).1]; rfl, ?_⟩
    intro e he a ha c hc k hk
    show applyOp (opFor it false i) (F.val i) e ((a * d.count + c) * d.count + k) = _
    rw [(hop i hi).1]
    exact space_exact (E := lagrangeTable o d) (P := IsPoly o.count) (lagrange_exact Do d) (fun y z => poly2_x (poly3_xy (hf e) z) y)
      (fun x z => poly2_y (poly3_xy (hf e) z) x) (poly3_z (hf e)) (fun a ha b hb c hc => hs.2 e he a ha b hb c hc) ha hc hk
  · intro F hF
    have hpos : 0 < F.pts := by rw [hF]; exact Nat.mul_pos (Nat.mul_pos Dd.1 Dd.1) Dd.1
    obtain ⟨F', s, hc⟩ := call_back (it := it) (F := F) (Or.inr hnd) (by rw [(hop 0 h0).2]; exact hF) hpos
    refine ⟨_, hc, s.1, s.2.1, ?_⟩
    intro i f hi hlt hf hs
    refine ⟨by rw [(hop 0 h0).2]; rfl, ?_⟩
    intro e he a ha c hc k hk
    have he' : e < F.elems := s.2.1 ▸ he
    show applyOp (opFor it true i) (F'.val i) e ((a * o.count + c) * o.count + k) = _
    rw [(hop i hi).2]
    refine space_exact (E := lagrangeTable d o) (P := IsPoly d.count) (lagrange_exact Dd o) (fun y z => poly2_x (poly3_xy (hf e) z) y)
      (fun x z => poly2_y (poly3_xy (hf e) z) x) (poly3_z (hf e)) ?_ ha hc hk
    intro a ha b hb c hc
    rw [s.2.2.2 i hlt e he' _ (by rw [hF]; exact pair_lt (pair_lt ha hb) hc)]
    exact hs.2 e he' a ha b hb c hc

theorem npts_pos {ndim k : Nat} (h : 0 < k) : 0 < npts ndim k := by
  unfold npts
  split
  · exact Nat.mul_pos (Nat.mul_pos h h) h
  · exact Nat.mul_pos h h

/-- **To at least as many points and back is the identity**, for every set of fields and on every grid, velocities included. -/
theorem C99_round_trip (hla : Exact la) (ho : basisPoints gauss t1 n b = .ok o) (hd : basisPoints gauss t2 m b = .ok d) (Do : Distinct o)
    (Dd : Distinct d) (hn : 0 < n) (hnm : n ≤ m) {ndim : Nat} (hdim : ndim = 2 ∨ ndim = 3) :
    ∃ it, create gauss la t1 n t2 m "lagrange" grid ndim b = .ok it ∧
      ∀ F : Fields, F.pts = o.count ^ ndim → ∃ G H, call it F false = .ok G ∧ call it G true = .ok H ∧ Same H F := by
  obtain ⟨it, hit, hnd, hop, _, _⟩ := lagrange_create (ndim := ndim) (grid := grid) hla ho hd Do Dd hn (by omega)
  refine ⟨it, hit, fun F hF => ?_⟩
  have hcount : o.count ≤ d.count := by
    rw [basis_count ho, basis_count hd]
    split <;> omega
  refine round_trip (r := npts ndim d.count) (c := npts ndim o.count) (npts_pos Dd.1) (hnd ▸ hdim) ?_ ?_
  · intro i
    obtain ⟨A, B, h1, h2, h3, _⟩ := hop i
    exact ⟨A, B, h1, h2, h3 hcount⟩
  · rw [hF]
    rcases hdim with rfl | rfl
    · rw [pow_two]; rfl
    · rw [pow_succ, pow_two]; rfl

/-- **Back to at least as many points and forth again is the identity**: restriction undoes prolongation. -/
theorem C99_restrict_prolong (hla : Exact la) (ho : basisPoints gauss t1 n b = .ok o) (hd : basisPoints gauss t2 m b = .ok d) (Do : Distinct o)
    (Dd : Distinct d) (hm : 0 < m) (hnm : m ≤ n) {ndim : Nat} (hdim : ndim = 2 ∨ ndim = 3) :
    ∃ it, create gauss la t1 n t2 m "lagrange" grid ndim b = .ok it ∧
      ∀ F : Fields, F.pts = d.count ^ ndim → ∃ G H, call it F true = .ok G ∧ call it G false = .ok H ∧ Same H F := by
  obtain ⟨it, hit, hnd, hop, _, _⟩ := lagrange_create (ndim := ndim) (grid := grid) hla ho hd Do Dd (by omega) hm
  refine ⟨it, hit, fun F hF => ?_⟩
  have hcount : d.count ≤ o.count := by
    rw [basis_count ho, basis_count hd]
    split <;> omega
  refine round_trip_back (r := npts ndim d.count) (c := npts ndim o.count) (npts_pos Dd.1) (hnd ▸ hdim) ?_ ?_
  · intro i
    obtain ⟨A, B, h1, h2, _, h3⟩ := hop i
    exact ⟨A, B, h1, h2, h3 hcount⟩
  · rw [hF]
    rcases hdim with rfl | rfl
    · rw [pow_two]; rfl
    · rw [pow_succ, pow_two]; rfl

/-- **On the cubed sphere restricted velocities are wrong by a factor**: on the same elements, with fewer points, a velocity that is 1 everywhere
becomes `(m / n) ^ (1 / 2)`, which is less than 1. -/
theorem C99_velocity_fails (hla : Exact la) (ho : Distinct ⟨n, gauss n⟩) (hd : Distinct ⟨m, gauss m⟩) (hm : 0 < m) (hnm : m < n) :
    ∃ it, create gauss la "dg" n "dg" m "lagrange" "cubed_sphere" 2 false = .ok it ∧
      ∀ F : Fields, F.pts = n * n → (∀ e p, F.val 1 e p = 1) → ∃ G, call it F false = .ok G ∧
        ∀ e < G.elems, ∀ p < G.pts, G.val 1 e p = ((m : ℝ) / n) ^ (1 / (2 : ℝ)) ∧ G.val 1 e p < 1 := by
  obtain ⟨it, hit, hnd, _, hop, hvel⟩ := lagrange_create (ndim := 2) (grid := "cubed_sphere") (gauss := gauss) (t1 := "dg") (t2 := "dg") (b := false)
    (n := n) (m := m) (o := ⟨n, gauss n⟩) (d := ⟨m, gauss m⟩) hla rfl rfl ho hd (by omega) hm
  refine ⟨it, hit, fun F hF hone => ?_⟩
  have h0 : ¬ Velocity "cubed_sphere" 0 := by simp [Velocity]
  refine ⟨_, call_forward (Or.inl hnd) (by rw [(hop 0 h0).1]; exact hF), ?_⟩
  intro e _ p hp
  have hp' : p < m * m := by
    have : (opFor it false 0).rows = m * m := by rw [(hop 0 h0).1]; rfl
    exact this ▸ hp
  have e1 : applyOp (opFor it false 1) (F.val 1) e p = ((m : ℝ) / n) ^ (1 / (2 : ℝ)) := by
    rw [hvel 1 ⟨rfl, Or.inl rfl⟩, applyOp_scale]
    have hf : velocityFactor "dg" "dg" n m 2 = ((m : ℝ) / n) ^ (1 / (2 : ℝ)) := by
      unfold velocityFactor
      rw [if_neg (by decide), if_pos hnm]
      norm_num
    have hval : applyOp (tensor 2 (lagrangeTable ⟨n, gauss n⟩ ⟨m, gauss m⟩)) (F.val 1) e p = 1 := by
      have hdm : p = p / m * m + p % m := by rw [Nat.mul_comm]; exact (Nat.div_add_mod p m).symm
      have hp1 : p / m < m := Nat.div_lt_of_lt_mul hp'
      have hp2 : p % m < m := Nat.mod_lt _ hm
      have key := plane_exact (E := lagrangeTable ⟨n, gauss n⟩ ⟨m, gauss m⟩) (P := IsPoly n) (lagrange_exact ho ⟨m, gauss m⟩) (f := fun _ _ => (1 : ℝ))
        (v := F.val 1) (e := e) (fun _ => ?_) (fun _ => ?_) (fun a _ b _ => hone e _) hp1 hp2
      · rw [hdm]
        exact key
      · exact ⟨fun a => if a = 0 then 1 else 0, fun x => by
          rw [Finset.sum_eq_single 0]
          · simp
          · intro k _ hk; simp [hk]
          · intro h; exact absurd (Finset.mem_range.mpr (by omega)) h⟩
      · exact ⟨fun a => if a = 0 then 1 else 0, fun x => by
          rw [Finset.sum_eq_single 0]
          · simp
          · intro k _ hk; simp [hk]
          · intro h; exact absurd (Finset.mem_range.mpr (by omega)) h⟩
    rw [hval, mul_one, hf]
  refine ⟨e1, ?_⟩
  show applyOp (opFor it false 1) (F.val 1) e p < 1
  rw [e1]
  have h1 : (0 : ℝ) < n := by exact_mod_cast (by omega : 0 < n)
  have h2 : (m : ℝ) < n := by exact_mod_cast hnm
  exact Real.rpow_lt_one (by positivity) ((div_lt_one h1).mpr h2) (by norm_num)

/-- **The method `l2-norm`, which the configuration allows, never works.** -/
theorem C99_l2_fails (grid : String) (ndim : Nat) : create gauss la "dg" n "fv" m "l2-norm" grid ndim b = .error "TypeError" := by
  unfold create
  cases b <;> rfl

/-- **Linear interpolation from the points of a spectral element never works.** -/
theorem C99_linear_from_dg_fails (grid : String) (ndim : Nat) : create gauss la "dg" n "fv" m "bilinear" grid ndim b = .error "TypeError" := by
  unfold create
  cases b <;> rfl

/-- **The operator of the method `modal` has the size of a line**, so that it does not apply to elements of the plane. -/
theorem C99_modal_fails (hn : 2 ≤ n) (hg : grid ≠ "cubed_sphere") {F : Fields} (hF : F.pts = n * n) :
    ∃ it, create gauss la "dg" n "fv" m "modal" grid 2 false = .ok it ∧ call it F false = .error "ValueError" := by
  refine ⟨_, create_plain (o := ⟨n, gauss n⟩) (d := ⟨m, midpoint m⟩) rfl rfl rfl hg, ?_⟩
  unfold call
  rw [if_pos (Or.inl rfl)]
  have hc : F.pts ≠ n := by rw [hF]; nlinarith
  exact if_neg hc

/-! ## Linear interpolation between cells -/

/-- **Linear interpolation to fewer cells does not leave the range of the values**, if the object can be created. -/
theorem C99_within (hm : 0 < m) (hnm : m ≤ n) {ndim : Nat} (hdim : ndim = 2 ∨ ndim = 3) {it : Interpolator}
    (hit : create gauss la "fv" n "fv" m "bilinear" grid ndim false = .ok it) {F : Fields} (hF : F.pts = n ^ ndim) :
    ∃ G, call it F false = .ok G ∧ G.pts = m ^ ndim ∧
      ∀ i lo hi, ¬ (grid = "cubed_sphere" ∧ (i = 1 ∨ i = 2)) → Within lo hi i F → Within lo hi i G := by
  have hn : 0 < n := by omega
  have hb : ∃ R, baseOps la "fv" n m "bilinear" ndim ⟨n, midpoint n⟩ ⟨m, midpoint m⟩ =
      .ok (tensor ndim (linearTable ⟨n, midpoint n⟩ ⟨m, midpoint m⟩), R) ∧ it.ndim = ndim ∧
      ∀ i, ¬ Velocity grid i → opFor it false i = tensor ndim (linearTable ⟨n, midpoint n⟩ ⟨m, midpoint m⟩) := by
    unfold create at hit
    simp only [basisPoints, Bool.false_eq_true, if_false, bind, Except.bind, show ("fv" : String) ≠ "dg" from by decide, if_true] at hit
    cases hr : reverseOf la n m (tensor ndim (linearTable ⟨n, midpoint n⟩ ⟨m, midpoint m⟩)) with
    | error e =>
      have : baseOps la "fv" n m "bilinear" ndim ⟨n, midpoint n⟩ ⟨m, midpoint m⟩ = .error e := by
        simp [baseOps, hr, Except.map]
      rw [this] at hit
      cases hit
    | ok R =>
      have hbase : baseOps la "fv" n m "bilinear" ndim ⟨n, midpoint n⟩ ⟨m, midpoint m⟩ =
          .ok (tensor ndim (linearTable ⟨n, midpoint n⟩ ⟨m, midpoint m⟩), R) := by
        simp [baseOps, hr, Except.map]
      rw [hbase] at hit
      refine ⟨R, hbase, ?_⟩
      dsimp only at hit
      by_cases hg : grid = "cubed_sphere"
      · rw [if_pos hg] at hit
        cases hv : reverseOf la n m (scale (velocityFactor "fv" "fv" n m ndim) (tensor ndim (linearTable ⟨n, midpoint n⟩ ⟨m, midpoint m⟩))) with
        | error e => rw [hv] at hit; cases hit
        | ok W =>
          rw [hv] at hit
          cases hit
          refine ⟨rfl, fun i hi => ?_⟩
          rw [opFor_cubed _ rfl, if_neg fun h => hi ⟨hg, h⟩]
          rfl
      · rw [if_neg hg] at hit
        cases hit
        exact ⟨rfl, fun i _ => opFor_plain _ rfl _ _⟩
  obtain ⟨R, _, hnd, hop⟩ := hb
  have h0 : ¬ Velocity grid 0 := by simp [Velocity]
  have hst : Stochastic (lin ⟨n, midpoint n⟩ ⟨m, midpoint m⟩) :=
    linear_stochastic hn (midpoint_increasing hn) (fun i hi => (midpoint_range hm hnm hi).1) (fun i hi => (midpoint_range hm hnm hi).2)
  rcases hdim with rfl | rfl
  · have ht : tensor 2 (linearTable ⟨n, midpoint n⟩ ⟨m, midpoint m⟩) = ⟨m * m, n * n, kr (lin ⟨n, midpoint n⟩ ⟨m, midpoint m⟩) (lin ⟨n, midpoint n⟩ ⟨m, midpoint m⟩)⟩ := rfl
    refine ⟨_, call_forward (Or.inl hnd) (by rw [hop 0 h0, ht, hF, pow_two]), ?_, ?_⟩
    · show (opFor it false 0).rows = m ^ 2
      rw [hop 0 h0, ht, pow_two]
    · intro i lo hi hv hw e he p hp
      show lo ≤ applyOp (opFor it false i) (F.val i) e p ∧ applyOp (opFor it false i) (F.val i) e p ≤ hi
      have hp' : p < m * m := by
        have : (opFor it false 0).rows = m * m := by rw [hop 0 h0, ht]
        exact this ▸ hp
      rw [hop i hv, ht]
      exact stochastic_within (stochastic_kr hst hst) (fun q hq => hw e he q (by rw [hF, pow_two]; exact hq)) hp'
  · have ht : tensor 3 (linearTable ⟨n, midpoint n⟩ ⟨m, midpoint m⟩) = ⟨m * m * m, n * n * n, kr (kr (lin ⟨n, midpoint n⟩ ⟨m, midpoint m⟩)
        (lin ⟨n, midpoint n⟩ ⟨m, midpoint m⟩)) (lin ⟨n, midpoint n⟩ ⟨m, midpoint m⟩)⟩ := rfl
    refine ⟨_, call_forward (Or.inr hnd) (by rw [hop 0 h0, ht, hF, pow_succ, pow_two]), ?_, ?_⟩
    · show (opFor it false 0).rows = m ^ 3
      rw [hop 0 h0, ht, pow_succ, pow_two]
    · intro i lo hi hv hw e he p hp
      show lo ≤ applyOp (opFor it false i) (F.val i) e p ∧ applyOp (opFor it false i) (F.val i) e p ≤ hi
      have hp' : p < m * m * m := by
        have : (opFor it false 0).rows = m * m * m := by rw [hop 0 h0, ht]
        exact this ▸ hp
      rw [hop i hv, ht]
      exact stochastic_within (stochastic_kr (stochastic_kr hst hst) hst) (fun q hq => hw e he q (by rw [hF, pow_succ, pow_two]; exact hq)) hp'

/-- an inverse that is symmetric on the other side is the pseudo-inverse -/
theorem penrose_of_right {r c : Nat} {A : Matrix (Fin r) (Fin c) ℝ} {R : Matrix (Fin c) (Fin r) ℝ} (h : A * R = 1) (hs : (R * A)ᵀ = R * A) :
    Penrose A R :=
  ⟨by rw [h, Matrix.one_mul], by rw [Matrix.mul_assoc, h, Matrix.mul_one], by rw [h, Matrix.transpose_one], hs⟩

/-- each of two neighbouring cells gets the value of their union -/
def copies (m : Nat) : Matrix (Fin (2 * m)) (Fin m) ℝ := fun j i => if j.1 / 2 = i.1 then 1 else 0

/-- means of two neighbouring cells -/
noncomputable def means (m : Nat) : Matrix (Fin m) (Fin (2 * m)) ℝ := fun i j => if j.1 / 2 = i.1 then 1 / 2 else 0

theorem sum_halves (m : Nat) (i : Fin m) (g : Nat → ℝ) : ∑ j : Fin (2 * m), means m i j * g j = (g (2 * i) + g (2 * i + 1)) / 2 := by
  have hi := i.2
  unfold means
  rw [Fin.sum_univ_eq_sum_range (fun j => (if j / 2 = i.1 then 1 / 2 else 0) * g j) (2 * m)]
  rw [Finset.sum_eq_add_of_mem (a := 2 * i.1) (b := 2 * i.1 + 1) (Finset.mem_range.mpr (by omega)) (Finset.mem_range.mpr (by omega)) (by omega)]
  · rw [if_pos (by omega), if_pos (by omega)]
    ring
  · intro c _ hc
    rw [if_neg (by omega), zero_mul]

theorem sum_copies (m : Nat) (j : Fin (2 * m)) (g : Nat → ℝ) : ∑ i : Fin m, copies m j i * g i = g (j / 2) := by
  have hj := j.2
  unfold copies
  rw [Finset.sum_eq_single (⟨j.1 / 2, by omega⟩ : Fin m)]
  · simp
  · intro c _ hc
    rw [if_neg (fun h => hc (Fin.ext h.symm)), zero_mul]
  · intro h; exact absurd (Finset.mem_univ _) h

theorem means_copies (m : Nat) : means m * copies m = 1 := by
  ext i k
  rw [Matrix.mul_apply]
  have := sum_halves m i (fun j => if j / 2 = k.1 then 1 else 0)
  rw [show (∑ j : Fin (2 * m), means m i j * copies m j k) = _ from this]
  rw [Matrix.one_apply]
  simp only [Fin.ext_iff]
  have h1 : 2 * i.1 / 2 = i.1 := by omega
  have h2 : (2 * i.1 + 1) / 2 = i.1 := by omega
  rw [h1, h2]
  split <;> norm_num

theorem copies_means (m : Nat) : (copies m * means m)ᵀ = copies m * means m := by
  have e : copies m = (2 : ℝ) • (means m)ᵀ := by
    ext j i
    simp only [copies, means, Matrix.smul_apply, Matrix.transpose_apply, smul_eq_mul]
    split <;> norm_num
  rw [e, Matrix.smul_mul, Matrix.transpose_smul, Matrix.transpose_mul, Matrix.transpose_transpose]

/-- **Halving the number of cells in each direction takes means, and back it copies**: the new value is the mean of the four values of the cells that
are joined, so that totals are kept; back, every cell gets the value of the joined cell it belongs to. -/
theorem C99_halving (hla : Exact la) (hm : 0 < m) (hg : grid ≠ "cubed_sphere") :
    ∃ it, create gauss la "fv" (2 * m) "fv" m "bilinear" grid 2 false = .ok it ∧
      (∀ F : Fields, F.pts = (2 * m) * (2 * m) → ∃ G, call it F false = .ok G ∧ G.fields = F.fields ∧ G.elems = F.elems ∧ G.pts = m * m ∧
        ∀ i e a c, a < m → c < m → G.val i e (a * m + c) = (F.val i e ((2 * a) * (2 * m) + 2 * c) + F.val i e ((2 * a) * (2 * m) + (2 * c + 1)) +
          F.val i e ((2 * a + 1) * (2 * m) + 2 * c) + F.val i e ((2 * a + 1) * (2 * m) + (2 * c + 1))) / 4) ∧
      ∀ F : Fields, F.pts = m * m → ∃ G, call it F true = .ok G ∧ G.fields = F.fields ∧ G.elems = F.elems ∧ G.pts = (2 * m) * (2 * m) ∧
        ∀ i < F.fields, ∀ e < F.elems, ∀ a < 2 * m, ∀ c < 2 * m, G.val i e (a * (2 * m) + c) = F.val i e (a / 2 * m + c / 2) := by
  have hlin : lin ⟨2 * m, midpoint (2 * m)⟩ ⟨m, midpoint m⟩ = means m := by
    ext i j
    exact halving m i j
  have ht : tensor 2 (linearTable ⟨2 * m, midpoint (2 * m)⟩ ⟨m, midpoint m⟩) = kron ⟨m, 2 * m, means m⟩ ⟨m, 2 * m, means m⟩ := by
    rw [← hlin]; rfl
  have hp : Penrose (kr (means m) (means m)) (kr (copies m) (copies m)) := by
    refine penrose_of_right (by rw [kr_mul, means_copies, kr_one]) ?_
    rw [kr_mul, kr_transpose, copies_means]
  have hb : baseOps la "fv" (2 * m) m "bilinear" 2 ⟨2 * m, midpoint (2 * m)⟩ ⟨m, midpoint m⟩ =
      .ok (kron ⟨m, 2 * m, means m⟩ ⟨m, 2 * m, means m⟩, kron ⟨2 * m, m, copies m⟩ ⟨2 * m, m, copies m⟩) := by
    have hr : reverseOf la (2 * m) m (kron ⟨m, 2 * m, means m⟩ ⟨m, 2 * m, means m⟩) = .ok (kron ⟨2 * m, m, copies m⟩ ⟨2 * m, m, copies m⟩) := by
      unfold reverseOf
      rw [if_neg (by omega)]
      exact hla.2 _ _ (kr (means m) (means m)) (kr (copies m) (copies m)) hp
    unfold baseOps
    rw [ht, hr]
    simp [Except.map]
  refine ⟨_, create_plain (o := ⟨2 * m, midpoint (2 * m)⟩) (d := ⟨m, midpoint m⟩) rfl rfl hb hg, ?_, ?_⟩
  · intro F hF
    refine ⟨_, call_forward (Or.inl rfl) hF, rfl, rfl, rfl, ?_⟩
    intro i e a c ha hc
    show applyOp (kron ⟨m, 2 * m, means m⟩ ⟨m, 2 * m, means m⟩) (F.val i) e (a * m + c) = _
    rw [kron_apply ⟨m, 2 * m, means m⟩ ⟨m, 2 * m, means m⟩ ⟨a, ha⟩ ⟨c, hc⟩ (F.val i) e]
    have inner : ∀ j : Nat, ∑ l : Fin (2 * m), means m ⟨c, hc⟩ l * F.val i e (j * (2 * m) + l) =
        (F.val i e (j * (2 * m) + 2 * c) + F.val i e (j * (2 * m) + (2 * c + 1))) / 2 :=
      fun j => sum_halves m ⟨c, hc⟩ fun l => F.val i e (j * (2 * m) + l)
    simp only [inner]
    rw [sum_halves m ⟨a, ha⟩ fun j => (F.val i e (j * (2 * m) + 2 * c) + F.val i e (j * (2 * m) + (2 * c + 1))) / 2]
    ring
  · intro F hF
    obtain ⟨F', s, hcall⟩ := call_back (it := ⟨2, kron ⟨m, 2 * m, means m⟩ ⟨m, 2 * m, means m⟩, kron ⟨2 * m, m, copies m⟩ ⟨2 * m, m, copies m⟩, none⟩)
      (F := F) (Or.inl rfl) hF (by rw [hF]; exact Nat.mul_pos hm hm)
    refine ⟨_, hcall, s.1, s.2.1, rfl, ?_⟩
    intro i hi e he a ha c hc
    show applyOp (kron ⟨2 * m, m, copies m⟩ ⟨2 * m, m, copies m⟩) (F'.val i) e (a * (2 * m) + c) = _
    rw [kron_apply ⟨2 * m, m, copies m⟩ ⟨2 * m, m, copies m⟩ ⟨a, ha⟩ ⟨c, hc⟩ (F'.val i) e]
    have inner : ∀ j : Nat, ∑ l : Fin m, copies m ⟨c, hc⟩ l * F'.val i e (j * m + l) = F'.val i e (j * m + c / 2) :=
      fun j => sum_copies m ⟨c, hc⟩ fun l => F'.val i e (j * m + l)
    simp only [inner]
    rw [sum_copies m ⟨a, ha⟩ fun j => F'.val i e (j * m + c / 2)]
    refine s.2.2.2 i hi e he _ ?_
    rw [hF]
    exact pair_lt (by omega) (by omega)

/-- **Functions of first degree in each variable are reproduced** by linear interpolation between any numbers of cells, if the object can be created
(shown for two variables and a grid other than the cubed sphere). -/
theorem C99_bilinear (hn : 2 ≤ n) (hg : grid ≠ "cubed_sphere") {it : Interpolator}
    (hit : create gauss la "fv" n "fv" m "bilinear" grid 2 false = .ok it) {F : Fields} {i : Nat} {f : Nat → ℝ → ℝ → ℝ}
    (hf : ∀ e, IsPoly2 2 (f e)) (hs : Samples2 ⟨n, midpoint n⟩ i f F) :
    ∃ G, call it F false = .ok G ∧ Samples2 ⟨m, midpoint m⟩ i f G := by
  cases hr : reverseOf la n m (tensor 2 (linearTable ⟨n, midpoint n⟩ ⟨m, midpoint m⟩)) with
  | error e =>
    have hb : baseOps la "fv" n m "bilinear" 2 ⟨n, midpoint n⟩ ⟨m, midpoint m⟩ = .error e := by simp [baseOps, hr, Except.map]
    unfold create at hit
    simp only [basisPoints, Bool.false_eq_true, if_false, bind, Except.bind, show ("fv" : String) ≠ "dg" from by decide, if_true, hb] at hit
    cases hit
  | ok R =>
    have hb : baseOps la "fv" n m "bilinear" 2 ⟨n, midpoint n⟩ ⟨m, midpoint m⟩ = .ok (tensor 2 (linearTable ⟨n, midpoint n⟩ ⟨m, midpoint m⟩), R) := by
      simp [baseOps, hr, Except.map]
    rw [create_plain (o := ⟨n, midpoint n⟩) (d := ⟨m, midpoint m⟩) rfl rfl hb hg] at hit
    cases hit
    refine ⟨_, call_forward (Or.inl rfl) hs.1, rfl, ?_⟩
    intro e he a ha c hc
    exact plane_exact (E := linearTable ⟨n, midpoint n⟩ ⟨m, midpoint m⟩) (P := IsPoly 2)
      (linear_affine (o := ⟨n, midpoint n⟩) hn (midpoint_increasing (by omega)) ⟨m, midpoint m⟩) (poly2_x (hf e)) (poly2_y (hf e))
      (fun a ha b hb => hs.2 e he a ha b hb) ha hc

/-- **A grid of finite volumes cannot be restricted**: on it every element has one point, but the operator expects the points of a group of cells. -/
theorem C99_fv_level_fails (hn : 2 ≤ n) {it : Interpolator} (hg : grid ≠ "cubed_sphere")
    (hit : create gauss la "fv" n "fv" m "bilinear" grid 2 false = .ok it) {F : Fields} (hF : F.pts = 1) : call it F false = .error "ValueError" := by
  cases hr : reverseOf la n m (tensor 2 (linearTable ⟨n, midpoint n⟩ ⟨m, midpoint m⟩)) with
  | error e =>
    have hb : baseOps la "fv" n m "bilinear" 2 ⟨n, midpoint n⟩ ⟨m, midpoint m⟩ = .error e := by simp [baseOps, hr, Except.map]
    unfold create at hit
    simp only [basisPoints, Bool.false_eq_true, if_false, bind, Except.bind, show ("fv" : String) ≠ "dg" from by decide, if_true, hb] at hit
    cases hit
  | ok R =>
    have hb : baseOps la "fv" n m "bilinear" 2 ⟨n, midpoint n⟩ ⟨m, midpoint m⟩ = .ok (tensor 2 (linearTable ⟨n, midpoint n⟩ ⟨m, midpoint m⟩), R) := by
      simp [baseOps, hr, Except.map]
    rw [create_plain (o := ⟨n, midpoint n⟩) (d := ⟨m, midpoint m⟩) rfl rfl hb hg] at hit
    cases hit
    unfold call
    rw [if_pos (Or.inl rfl)]
    have hc : F.pts ≠ n * n := by rw [hF]; nlinarith
    exact if_neg hc

/-- **Regrouping finds the cells of an element only in a single column of elements, or if an element is one cell**: cells are stored row by row over
the whole grid, but regrouped as if the cells of an element were neighbours in memory. -/
theorem C99_regroup_iff {h w : Nat} (hh : 0 < h) (hw : 0 < w) (hm : 0 < m) :
    (∀ F : Fields, F.elems = (h * m) * (w * m) → F.pts = 1 → ∃ G, regroup F (m * m) = .ok G ∧
      ∀ i, ∀ er < h, ∀ ec < w, ∀ a < m, ∀ c < m, G.val i (er * w + ec) (a * m + c) = F.val i ((er * m + a) * (w * m) + (ec * m + c)) 0) ↔
      w = 1 ∨ m = 1 := by
  constructor
  · intro H
    by_contra hne
    have hw2 : 2 ≤ w := by omega
    have hm2 : 2 ≤ m := by omega
    obtain ⟨G, hG, hv⟩ := H ⟨1, (h * m) * (w * m), 1, fun _ e _ => e⟩ rfl rfl
    unfold regroup at hG
    dsimp only at hG
    rw [if_pos ⟨h * w, by ring⟩] at hG
    cases hG
    have := hv 0 0 hh 0 hw 1 (by omega) 0 (by omega)
    simp only [Nat.div_one, zero_mul, zero_add, one_mul, add_zero, Nat.cast_inj] at this
    nlinarith
  · intro H F he hp
    refine ⟨_, if_pos ⟨h * w, by rw [he, hp]; ring⟩, ?_⟩
    intro i er _ ec hec a ha c hc
    show F.val i (((er * w + ec) * (m * m) + (a * m + c)) / F.pts) (((er * w + ec) * (m * m) + (a * m + c)) % F.pts) = _
    rw [hp, Nat.div_one, Nat.mod_one]
    congr 1
    rcases H with rfl | rfl
    · have : ec = 0 := by omega
      subst this
      ring
    · have h1 : a = 0 := by omega
      have h2 : c = 0 := by omega
      subst h1 h2
      ring

theorem two_points (x : ℝ) (j : Nat) : linearWeights ⟨2, midpoint 2⟩ x j = if j = 0 then 1 / 2 - x else if j = 1 then 1 / 2 + x else 0 := by
  have h1 := (interval_spec ⟨2, midpoint 2⟩ x 0 (by simp) (Or.inl rfl)).1
  have h0 : interval ⟨2, midpoint 2⟩ x 0 = 0 := by simp only at h1; omega
  unfold linearWeights
  rw [if_neg (by simp)]
  simp only [h0, WxVerif.Interpolation.midpoint]
  norm_num
  split_ifs <;> ring

/-- **Linear interpolation to more cells leaves the range of the values**: next to the ends it extrapolates, and nonnegative values become negative. -/
theorem C99_refine_fails (hla : Exact la) (hg : grid ≠ "cubed_sphere") :
    ∃ it, create gauss la "fv" 2 "fv" 4 "bilinear" grid 2 false = .ok it ∧
      ∃ F G : Fields, F.pts = 4 ∧ 0 < F.elems ∧ (∀ i e p, 0 ≤ F.val i e p) ∧ call it F false = .ok G ∧ G.val 0 0 0 < 0 := by
  have hA : (lin ⟨2, midpoint 2⟩ ⟨4, midpoint 4⟩) = fun (i : Fin 4) (j : Fin 2) => if j.1 = 0 then 1 / 2 - midpoint 4 i.1 else 1 / 2 + midpoint 4 i.1 := by
    ext i j
    show linearWeights ⟨2, midpoint 2⟩ (midpoint 4 i) j = _
    rw [two_points]
    have : j.1 = 0 ∨ j.1 = 1 := by have := j.2; simp only at this; omega
    rcases this with h | h <;> simp [h]
  have hL : means 2 * (lin ⟨2, midpoint 2⟩ ⟨4, midpoint 4⟩ : Matrix (Fin 4) (Fin 2) ℝ) = 1 := by
    ext i j
    rw [Matrix.mul_apply, hA]
    have := sum_halves 2 i (fun k => if j.1 = 0 then 1 / 2 - midpoint 4 k else 1 / 2 + midpoint 4 k)
    refine Eq.trans this ?_
    rw [midpoint_eq (by norm_num), midpoint_eq (by norm_num)]
    fin_cases i <;> fin_cases j <;> norm_num
  have hL2 : kr (means 2) (means 2) * kr (lin ⟨2, midpoint 2⟩ ⟨4, midpoint 4⟩ : Matrix (Fin 4) (Fin 2) ℝ) (lin ⟨2, midpoint 2⟩ ⟨4, midpoint 4⟩) = 1 := by
    rw [kr_mul, hL, kr_one]
  obtain ⟨X, hX, _⟩ := reverse_left hla (n := 2) (m := 4) (by norm_num) hL2
  have hb : baseOps la "fv" 2 4 "bilinear" 2 ⟨2, midpoint 2⟩ ⟨4, midpoint 4⟩ =
      .ok (tensor 2 (linearTable ⟨2, midpoint 2⟩ ⟨4, midpoint 4⟩), ⟨2 * 2, 4 * 4, X⟩) := by
    have hr : reverseOf la 2 4 (tensor 2 (linearTable ⟨2, midpoint 2⟩ ⟨4, midpoint 4⟩)) = .ok ⟨2 * 2, 4 * 4, X⟩ := hX
    simp [baseOps, hr, Except.map]
  refine ⟨_, create_plain (o := ⟨2, midpoint 2⟩) (d := ⟨4, midpoint 4⟩) rfl rfl hb hg,
    ⟨1, 1, 4, fun _ _ p => if p = 1 then 1 else 0⟩, _, rfl, one_pos, ?_, call_forward (Or.inl rfl) rfl, ?_⟩
  · intro i e p
    show (0 : ℝ) ≤ if p = 1 then 1 else 0
    split <;> norm_num
  · show applyOp (kron (linearTable ⟨2, midpoint 2⟩ ⟨4, midpoint 4⟩) (linearTable ⟨2, midpoint 2⟩ ⟨4, midpoint 4⟩)) (fun _ p => if p = 1 then 1 else 0) 0 0 < 0
    have := kron_apply (linearTable ⟨2, midpoint 2⟩ ⟨4, midpoint 4⟩) (linearTable ⟨2, midpoint 2⟩ ⟨4, midpoint 4⟩) ⟨0, by show 0 < 4; norm_num⟩
      ⟨0, by show 0 < 4; norm_num⟩ (fun _ p => if p = 1 then 1 else 0) 0
    have e0 : applyOp (kron (linearTable ⟨2, midpoint 2⟩ ⟨4, midpoint 4⟩) (linearTable ⟨2, midpoint 2⟩ ⟨4, midpoint 4⟩))
        (fun _ p => if p = 1 then 1 else 0) 0 0 = ∑ j : Fin 2, linearWeights ⟨2, midpoint 2⟩ (midpoint 4 0) j *
          ∑ l : Fin 2, linearWeights ⟨2, midpoint 2⟩ (midpoint 4 0) l * (if j.1 * 2 + l.1 = 1 then (1 : ℝ) else 0) := this
    rw [e0]
    simp only [Fin.sum_univ_two, two_points]
    simp only [WxVerif.Interpolation.midpoint]
    norm_num

/-! ## The hypotheses are met -/

open Classical in
/-- functions as documented exist -/
noncomputable def sampleLinalg : Linalg where
  inv o := if h : ∃ r : Op, ∃ k, ∃ A B : Matrix (Fin k) (Fin k) ℝ, o = ⟨k, k, A⟩ ∧ r = ⟨k, k, B⟩ ∧ B * A = 1 then .ok h.choose else .error "LinAlgError"
  pinv o := if h : ∃ r : Op, ∃ k l, ∃ (A : Matrix (Fin k) (Fin l) ℝ) (B : Matrix (Fin l) (Fin k) ℝ), o = ⟨k, l, A⟩ ∧ r = ⟨l, k, B⟩ ∧ Penrose A B
    then .ok h.choose else .error "LinAlgError"

theorem sample_exact : Exact sampleLinalg := by
  constructor
  · intro k A B h
    have hex : ∃ r : Op, ∃ k', ∃ A' B' : Matrix (Fin k') (Fin k') ℝ, (⟨k, k, A⟩ : Op) = ⟨k', k', A'⟩ ∧ r = ⟨k', k', B'⟩ ∧ B' * A' = 1 :=
      ⟨_, k, A, B, rfl, rfl, h⟩
    have e : sampleLinalg.inv ⟨k, k, A⟩ = .ok hex.choose := by
      unfold sampleLinalg
      exact dif_pos hex
    obtain ⟨k', A', B', h1, h2, h3⟩ := hex.choose_spec
    rw [e, h2]
    cases h1
    rw [show B' = B from ?_]
    exact left_inv_eq_left_inv h3 h
  · intro r c A X h
    have hex : ∃ s : Op, ∃ k l, ∃ (A' : Matrix (Fin k) (Fin l) ℝ) (B' : Matrix (Fin l) (Fin k) ℝ), (⟨r, c, A⟩ : Op) = ⟨k, l, A'⟩ ∧ s = ⟨l, k, B'⟩ ∧
        Penrose A' B' := ⟨_, r, c, A, X, rfl, rfl, h⟩
    have e : sampleLinalg.pinv ⟨r, c, A⟩ = .ok hex.choose := by
      unfold sampleLinalg
      exact dif_pos hex
    obtain ⟨k', l', A', B', h1, h2, h3⟩ := hex.choose_spec
    rw [e, h2]
    cases h1
    rw [penrose_unique h3 h]

theorem distinct_midpoints (k : Nat) (hk : 0 < k) : Distinct ⟨k, midpoint k⟩ := by
  refine ⟨hk, ?_⟩
  intro i _ j _ h
  by_contra hne
  rcases lt_or_gt_of_ne hne with h' | h'
  · exact absurd h (midpoint_lt hk h').ne
  · exact absurd h (midpoint_lt hk h').ne'

/-- **The points of an element** are the Gauss-Legendre points or the midpoints of equal cells, if asked for with the two ends of the element before and behind them;
so they increase, lie in the element and are distinct, which is what the theorems above ask of them. -/
theorem C99_points (hg : ∀ k < n, -1 < gauss n k ∧ gauss n k < 1) (hinc : ∀ i j, i < j → j < n → gauss n i < gauss n j) (ht : t1 = "dg" ∨ t1 = "fv") (hn : 0 < n) :
    ∃ p, basisPoints gauss t1 n b = .ok p ∧ Distinct p ∧ (∀ i j, i < j → j < p.count → p.pos i < p.pos j) ∧ (∀ i < p.count, -1 ≤ p.pos i ∧ p.pos i ≤ 1) ∧
      (b = true → p.count = n + 2 ∧ p.pos 0 = -1 ∧ p.pos (n + 1) = 1 ∧ ∀ k < n, p.pos (k + 1) = if t1 = "dg" then gauss n k else -1 + (2 * k + 1) / n) ∧
      (b = false → p.count = n ∧ ∀ k < n, p.pos k = if t1 = "dg" then gauss n k else -1 + (2 * k + 1) / n) := by
  have n0 : (0 : ℝ) < n := by exact_mod_cast hn
  have mid : ∀ k, midpoint n k = -1 + (2 * k + 1) / n := by
    intro k; rw [Interpolation.midpoint]; push_cast; field_simp; ring
  -- the inner points
  let q : Nat → ℝ := fun k => if t1 = "dg" then gauss n k else -1 + (2 * k + 1) / n
  have qin : ∀ k < n, -1 < q k ∧ q k < 1 := by
    intro k hk
    by_cases h : t1 = "dg"
    · simp only [q, if_pos h]; exact hg k hk
    · simp only [q, if_neg h]
      have hk' : (k : ℝ) + 1 ≤ n := by exact_mod_cast hk
      have k0 : (0 : ℝ) ≤ k := Nat.cast_nonneg k
      have a : 0 < (2 * (k : ℝ) + 1) / n := by positivity
      have c : (2 * (k : ℝ) + 1) / n < 2 := by rw [div_lt_iff₀ n0]; linarith
      constructor <;> linarith
  have qinc : ∀ i j, i < j → j < n → q i < q j := by
    intro i j hij hj
    by_cases h : t1 = "dg"
    · simp only [q, if_pos h]; exact hinc i j hij hj
    · simp only [q, if_neg h]
      have : (i : ℝ) < j := by exact_mod_cast hij
      have := div_lt_div_of_pos_right (show 2 * (i : ℝ) + 1 < 2 * j + 1 by linarith) n0
      linarith
  have inner : basisPoints gauss t1 n b = .ok (if b then withEnds ⟨n, q⟩ else ⟨n, q⟩) := by
    rcases ht with rfl | rfl
    · simp only [basisPoints, q, if_true]
    · have e : midpoint n = q := by
        funext k
        rw [mid]
        simp [q]
      simp [basisPoints, e]
  have inj : ∀ p : Points, 0 < p.count → (∀ i j, i < j → j < p.count → p.pos i < p.pos j) → Distinct p := by
    intro p h0 hp
    refine ⟨h0, fun i hi j hj h => ?_⟩
    simp only [Finset.coe_range, Set.mem_Iio] at hi hj
    by_contra hne
    rcases lt_or_gt_of_ne hne with h' | h'
    · exact absurd h (hp i j h' hj).ne
    · exact absurd h (hp j i h' hi).ne'
  refine ⟨_, inner, ?_⟩
  cases b with
  | false =>
    refine ⟨inj _ hn qinc, qinc, fun i hi => ⟨(qin i hi).1.le, (qin i hi).2.le⟩, by simp, fun _ => ⟨rfl, fun _ _ => rfl⟩⟩
  | true =>
    have p0 : (withEnds ⟨n, q⟩).pos 0 = -1 := rfl
    have p1 : (withEnds ⟨n, q⟩).pos (n + 1) = 1 := by simp [withEnds]
    have pk : ∀ k < n, (withEnds ⟨n, q⟩).pos (k + 1) = q k := by
      intro k hk
      simp only [withEnds]
      rw [if_neg (by omega), if_neg (by omega)]
      rfl
    have inc : ∀ i j, i < j → j < n + 2 → (withEnds ⟨n, q⟩).pos i < (withEnds ⟨n, q⟩).pos j := by
      intro i j hij hj
      obtain ⟨j, rfl⟩ : ∃ k, j = k + 1 := ⟨j - 1, by omega⟩
      rcases Nat.eq_or_lt_of_le (show j ≤ n by omega) with e | hj'
      · rw [e, p1]
        rcases i with _ | i
        · rw [p0]; norm_num
        · rw [pk i (by omega)]; exact (qin i (by omega)).2
      · rw [pk j hj']
        rcases i with _ | i
        · rw [p0]; exact (qin j hj').1
        · rw [pk i (by omega)]; exact qinc i j (by omega) hj'
    refine ⟨inj _ (by simp [withEnds]) inc, inc, fun i hi => ?_, fun _ => ⟨rfl, p0, p1, pk⟩, by simp⟩
    have hi' : i < n + 2 := hi
    rcases i with _ | i
    · simp only [if_true]; rw [p0]; norm_num
    · rcases Nat.eq_or_lt_of_le (show i ≤ n by omega) with e | h
      · simp only [if_true]; rw [e, p1]; norm_num
      · simp only [if_true]; rw [pk i h]; exact ⟨(qin i h).1.le, (qin i h).2.le⟩

/-- two, three or more points anywhere -/
example : ∃ it, create (fun _ k => (k : ℝ) / 10) sampleLinalg "dg" 3 "fv" 4 "lagrange" "cubed_sphere" 2 false = .ok it ∧
    ∀ F : Fields, F.pts = 3 ^ 2 → ∃ G H, call it F false = .ok G ∧ call it G true = .ok H ∧ Same H F :=
  C99_round_trip (o := ⟨3, fun k => (k : ℝ) / 10⟩) (d := ⟨4, midpoint 4⟩) sample_exact rfl rfl
    ⟨by norm_num, fun i _ j _ h => by simpa using h⟩ (distinct_midpoints 4 (by norm_num)) (by norm_num) (by norm_num) (Or.inl rfl)

/-- the polynomial `x² y` on nine points -/
example : IsPoly2 3 (fun x y => x ^ 2 * y) := by
  refine ⟨fun a b => if a = 2 ∧ b = 1 then 1 else 0, fun x y => ?_⟩
  simp [Finset.sum_range_succ]

/-- fields of one element -/
example : ∃ it, create (fun _ k => (k : ℝ) / 10) sampleLinalg "dg" 3 "dg" 2 "lagrange" "cubed_sphere" 2 false = .ok it ∧
    ∃ G : Fields, call it ⟨3, 1, 9, fun _ _ _ => 1⟩ false = .ok G := by
  obtain ⟨it, h1, h2⟩ := C99_velocity_fails (gauss := fun _ k => (k : ℝ) / 10) (la := sampleLinalg) (n := 3) (m := 2) sample_exact
    ⟨by norm_num, fun i _ j _ h => by simpa using h⟩ ⟨by norm_num, fun i _ j _ h => by simpa using h⟩ (by norm_num) (by norm_num)
  obtain ⟨G, hG, _⟩ := h2 ⟨3, 1, 9, fun _ _ _ => 1⟩ rfl fun _ _ => rfl
  exact ⟨it, h1, G, hG⟩

/-- from four cells to two the object is created and the range is kept -/
example : ∃ it G, create (fun _ _ => 0) sampleLinalg "fv" 4 "fv" 2 "bilinear" "cartesian2d" 2 false = .ok it ∧
    call it ⟨1, 1, 16, fun _ _ p => p⟩ false = .ok G ∧ Within 0 15 0 G := by
  obtain ⟨it, h1, _⟩ := C99_halving (gauss := fun _ _ => 0) (la := sampleLinalg) (m := 2) (grid := "cartesian2d") sample_exact (by norm_num) (by decide)
  obtain ⟨G, hG, _, hw⟩ := C99_within (n := 4) (m := 2) (by norm_num) (by norm_num) (Or.inl rfl) h1 (F := ⟨1, 1, 16, fun _ _ p => p⟩) (by norm_num)
  refine ⟨it, G, h1, hG, hw 0 0 15 (by simp) ?_⟩
  intro e _ p hp
  have : p ≤ 15 := by simp only at hp; omega
  have h' : (p : ℝ) ≤ 15 := by exact_mod_cast this
  exact ⟨Nat.cast_nonneg _, h'⟩

end WxVerif.Props.Interpolation
