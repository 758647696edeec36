import Verif.Props.EulerCartesian
import Verif.Spec.Consistency

/-!
# C66, Cartesian model: the tendency of a polynomial flow is minus the divergence of the physical flux
-/

namespace WxVerif.Props.CartesianConsistency

open Polynomial hiding comp
open WxVerif.Dfr WxVerif.Flux WxVerif.EulerCartesian WxVerif.Quad WxVerif.Props.Conservation WxVerif.Props.Operators
open WxVerif.Props.Flux WxVerif.Spec.Consistency WxVerif.Spec.Flux WxVerif.Props.EulerCartesian

/-- a polynomial in the position is a polynomial in the reference coordinate -/
theorem polyBelow_place {m : Nat} {f : ℝ → ℝ} (h : PolyBelow m f) (x0 Δ : ℝ) (hΔ : Δ ≠ 0) (e : Nat) :
    ∃ p : ℝ[X], p.degree < (m : WithBot Nat) ∧ (∀ ξ, f (place x0 Δ e ξ) = p.eval ξ) ∧
      ∀ ξ, (derivative p).eval ξ * (2 / Δ) = deriv f (place x0 Δ e ξ) := by
  obtain ⟨p, hp, hf⟩ := h
  set l : ℝ[X] := C (Δ / 2) * X + C (x0 + Δ * (e + 1 / 2)) with hl
  have le : ∀ ξ, l.eval ξ = place x0 Δ e ξ := by intro ξ; simp only [hl, place, eval_add, eval_mul, eval_C, eval_X]; ring
  refine ⟨p.comp l, ?_, ?_, ?_⟩
  · by_cases h0 : p = 0
    · simpa [h0] using hp
    · have h1 : (p.comp l).natDegree ≤ p.natDegree := by
        refine (natDegree_comp_le).trans ?_
        have : l.natDegree ≤ 1 := by rw [hl]; exact natDegree_linear_le
        nlinarith [Nat.zero_le p.natDegree]
      rw [degree_eq_natDegree h0] at hp
      exact lt_of_le_of_lt (degree_le_natDegree.trans (by exact_mod_cast h1)) hp
  · intro ξ; rw [eval_comp, le, hf]
  · intro ξ
    have hd : deriv f (place x0 Δ e ξ) = (derivative p).eval (place x0 Δ e ξ) := by
      rw [show f = fun x => p.eval x from funext hf]; exact p.deriv
    have dl : derivative l = C (Δ / 2) := by simp [hl]
    rw [derivative_comp, eval_mul, eval_comp, le, hd, dl, eval_C]
    field_simp

theorem polyBelow_mono {m m' : Nat} (h : m ≤ m') {f : ℝ → ℝ} (hf : PolyBelow m f) : PolyBelow m' f := by
  obtain ⟨p, hp, e⟩ := hf
  exact ⟨p, lt_of_lt_of_le hp (by exact_mod_cast h), e⟩

/-- the interface array along x1 holds the values of the polynomials of the lines at their ends -/
theorem qItf1_line (n : Nat) (pts : Nat → ℝ) (q : Arr) (v ek ei l : Nat) (hl : l < n) (s : Bool) :
    qItf1 n pts q v ek ei (slot n l s) = ∑ a ∈ Finset.range n, q v ek ei (l * n + a) * extrapVec n pts (if s then 1 else -1) a := by
  have hx : ∀ w : Nat → ℝ, ∑ c ∈ Finset.range (n * n), q v ek ei c * kron 1 n eye (row w) l c =
      ∑ a ∈ Finset.range n, q v ek ei (l * n + a) * w a := by
    intro w
    have := kron_eye_left (s := n) (rb := 1) (cb := n) (i := 0) hl (by omega) (row w) (q v ek ei)
    simpa [row] using this
  cases s
  · simp only [qItf1, vecmul, extrapX2, tr, vstack, slot, Bool.false_eq_true, if_false, hl, if_true, hx]
  · simp only [qItf1, vecmul, extrapX2, tr, vstack, slot, if_true, show ¬(n + l < n) by omega, if_false, Nat.add_sub_cancel_left, hx]

/-- the same along x3 -/
theorem qItf3_line (n : Nat) (pts : Nat → ℝ) (q : Arr) (v ek ei l : Nat) (hl : l < n) (s : Bool) :
    qItf3 n pts q v ek ei (slot n l s) = ∑ a ∈ Finset.range n, q v ek ei (a * n + l) * extrapVec n pts (if s then 1 else -1) a := by
  have hy : ∀ w : Nat → ℝ, ∑ c ∈ Finset.range (n * n), q v ek ei c * kron n n (row w) eye l c =
      ∑ a ∈ Finset.range n, q v ek ei (a * n + l) * w a := by
    intro w
    have := kron_eye_right (s := n) (q := n) (a := 0) hl (row w) (q v ek ei)
    simpa [row] using this
  cases s
  · simp only [qItf3, vecmul, extrapY2, tr, vstack, slot, Bool.false_eq_true, if_false, hl, if_true, hy]
  · simp only [qItf3, vecmul, extrapY2, tr, vstack, slot, if_true, show ¬(n + l < n) by omega, if_false, Nat.add_sub_cancel_left, hy]

/-- a wall without flow through it: the wall kernel returns the physical flux -/
theorem boundary_consistent (dir : Nat) (hd : dir < 2) (s old : State2) (h : comp s (dir + 1) = 0) (i : Nat) (hi : i < 4) :
    comp (boundaryKernel dir s old) i = euler2 dir (pressure2 s.rhoTheta) (comp s) i := by
  have hd' : dir = 0 ∨ dir = 1 := by omega
  have hi' : i = 0 ∨ i = 1 ∨ i = 2 ∨ i = 3 := by omega
  simp only [euler2, h, zero_div, zero_mul, zero_add]
  rcases hd' with rfl | rfl <;> rcases hi' with rfl | rfl | rfl | rfl <;> simp [boundaryKernel, comp]

/-- A line of elements whose extrapolated states agree at the faces, without flow through the two walls: on both sides of every element the
flux is the physical one, except that the transport of normal momentum by the flow through the face is missing. -/
theorem line_physical (dir N : Nat) (hd : dir < 2) (hN : 0 < N) (q old : Nat → Bool → State2) (S : Nat → State2)
    (hf : ∀ e < N, q e false = S e) (ht : ∀ e < N, q e true = S (e + 1)) (hρ : ∀ e ≤ N, 0 < (S e).rho) (hθ : ∀ e ≤ N, 0 < (S e).rhoTheta)
    (w0 : comp (S 0) (dir + 1) = 0) (wN : comp (S N) (dir + 1) = 0) (i : Nat) (hi : i < 4) (e : Nat) (he : e < N) (s : Bool) :
    comp (cartesianLine dir N q old e s) i =
      euler2 dir (pressure2 (S (if s then e + 1 else e)).rhoTheta) (comp (S (if s then e + 1 else e))) i
      - (if i = dir + 1 then comp (S (if s then e + 1 else e)) (dir + 1) ^ 2 / comp (S (if s then e + 1 else e)) 0 else 0) := by
  have inner : ∀ f ≤ N, comp (ausmKernel dir (S f) (S f)).1 i = euler2 dir (pressure2 (S f).rhoTheta) (comp (S f)) i
      - (if i = dir + 1 then comp (S f) (dir + 1) ^ 2 / comp (S f) 0 else 0) := by
    intro f hf'
    rw [C45_kernel_partial dir hd (S f) (hρ f hf') (hθ f hf') i hi]
    by_cases hc : i = dir + 1
    · rw [if_pos hc, if_pos hc]; simp only [euler2, hc, if_true]; ring
    · rw [if_neg hc, if_neg hc, sub_zero]
  have wall : ∀ (f : Nat) (o : State2), comp (S f) (dir + 1) = 0 → comp (boundaryKernel dir (S f) o) i =
      euler2 dir (pressure2 (S f).rhoTheta) (comp (S f)) i - (if i = dir + 1 then comp (S f) (dir + 1) ^ 2 / comp (S f) 0 else 0) := by
    intro f o h0
    rw [boundary_consistent dir hd _ _ h0 i hi, h0]
    simp
  rw [cartesianLine_eq dir N hN q old e he s]
  cases s
  · simp only [Bool.false_eq_true, if_false]
    split
    · next h0 => subst h0; rw [hf 0 hN]; exact wall 0 _ w0
    · next h0 =>
      have e1 : q (e - 1) true = S e := by rw [ht (e - 1) (by omega)]; congr 1; omega
      rw [e1, hf e he]
      exact inner e he.le
  · simp only [if_true]
    split
    · next h0 => rw [ht e he, hf (e + 1) h0]; exact inner (e + 1) (by omega)
    · next h0 =>
      have : e + 1 = N := by omega
      rw [ht e he, this]; exact wall N _ wN

theorem read_eq (q : Arr) (ek ei l : Nat) (f : Nat → ℝ) (h : ∀ v < 4, q v ek ei l = f v) :
    EulerCartesian.read q ek ei l = ⟨f 0, f 1, f 2, f 3⟩ := by
  simp only [EulerCartesian.read, h 0 (by omega), h 1 (by omega), h 2 (by omega), h 3 (by omega)]

theorem euler2_mk (dir : Nat) (hd : dir < 2) (p : ℝ) (f : Nat → ℝ) (i : Nat) (hi : i < 4) :
    euler2 dir p (comp ⟨f 0, f 1, f 2, f 3⟩) i = euler2 dir p f i := by
  have c : ∀ j < 4, comp ⟨f 0, f 1, f 2, f 3⟩ j = f j := by
    intro j hj
    have : j = 0 ∨ j = 1 ∨ j = 2 ∨ j = 3 := by omega
    rcases this with rfl | rfl | rfl | rfl <;> simp [comp]
  simp only [euler2, c 0 (by omega), c (dir + 1) (by omega), c i hi]

/-- the flow: `U v x z` is the value of variable `v` (0 density, 1 and 2 momenta, 3 potential temperature times density) at the point
`(x, z)`; the physical flux of variable `v` along direction `d` -/
noncomputable def physFlux (U : Nat → ℝ → ℝ → ℝ) (d v : Nat) (x z : ℝ) : ℝ := euler2 d (pressure2 (U 3 x z)) (fun i => U i x z) v

/-- the state of the flow at a point -/
def stateAt (U : Nat → ℝ → ℝ → ℝ) (x z : ℝ) : State2 := ⟨U 0 x z, U 1 x z, U 2 x z, U 3 x z⟩

/-- a rectangle of `nx` by `nz` elements with the solution points `pts`, and a flow on it -/
structure Setting (n nx nz : Nat) (pts : Nat → ℝ) (x0 z0 Δx Δz : ℝ) (U : Nat → ℝ → ℝ → ℝ) : Prop where
  points : Set.InjOn (extension n pts) (Finset.range (n + 2))
  inside : ∀ a < n, -1 ≤ pts a ∧ pts a ≤ 1
  width : 0 < Δx
  height : 0 < Δz
  polyX : ∀ v < 4, ∀ z, PolyBelow n fun x => U v x z
  polyZ : ∀ v < 4, ∀ x, PolyBelow n fun z => U v x z
  density : ∀ x z, x0 ≤ x → x ≤ x0 + Δx * nx → z0 ≤ z → z ≤ z0 + Δz * nz → 0 < U 0 x z
  theta : ∀ x z, x0 ≤ x → x ≤ x0 + Δx * nx → z0 ≤ z → z ≤ z0 + Δz * nz → 0 < U 3 x z
  wallsX : ∀ z, U 1 x0 z = 0 ∧ U 1 (x0 + Δx * nx) z = 0
  wallsZ : ∀ x, U 2 x z0 = 0 ∧ U 2 x (z0 + Δz * nz) = 0

theorem pts_inj {n : Nat} {pts : Nat → ℝ} (h : Set.InjOn (extension n pts) (Finset.range (n + 2))) : Set.InjOn pts (Finset.range n) := by
  intro a ha b hb hab
  have ha' := Finset.mem_range.mp ha
  have hb' := Finset.mem_range.mp hb
  have := @h (a + 1) (by simp; omega) (b + 1) (by simp; omega) (by rw [extension_mid pts ha', extension_mid pts hb', hab])
  omega

theorem place_bounds (x0 Δ : ℝ) (hΔ : 0 < Δ) {e N : Nat} (he : e < N) {ξ : ℝ} (h1 : -1 ≤ ξ) (h2 : ξ ≤ 1) :
    x0 ≤ place x0 Δ e ξ ∧ place x0 Δ e ξ ≤ x0 + Δ * N := by
  have he' : (e : ℝ) + 1 ≤ N := by exact_mod_cast he
  have he0 : (0 : ℝ) ≤ e := Nat.cast_nonneg e
  unfold place
  constructor
  · have : 0 ≤ Δ * ((e : ℝ) + (1 + ξ) / 2) := mul_nonneg hΔ.le (by linarith)
    linarith
  · have : Δ * ((e : ℝ) + (1 + ξ) / 2) ≤ Δ * N := mul_le_mul_of_nonneg_left (by linarith) hΔ.le
    linarith

theorem place_face (x0 Δ : ℝ) (e : Nat) : place x0 Δ e 1 = place x0 Δ (e + 1) (-1) := by unfold place; push_cast; ring

/-- the transport of normal momentum by the flow through the face at the lower end of element `e` along x1 -/
noncomputable def faceX (x0 Δx : ℝ) (U : Nat → ℝ → ℝ → ℝ) (e : Nat) (z : ℝ) : ℝ := U 1 (place x0 Δx e (-1)) z ^ 2 / U 0 (place x0 Δx e (-1)) z
/-- along x3 -/
noncomputable def faceZ (z0 Δz : ℝ) (U : Nat → ℝ → ℝ → ℝ) (e : Nat) (x : ℝ) : ℝ := U 2 x (place z0 Δz e (-1)) ^ 2 / U 0 x (place z0 Δz e (-1))

/-- the tendency of a polynomial flow, with the error of the momentum equations -/
theorem tendency_exact {n nx nz : Nat} {pts : Nat → ℝ} {x0 z0 Δx Δz : ℝ} {U : Nat → ℝ → ℝ → ℝ}
    (S : Setting n nx nz pts x0 z0 Δx Δz U) (mem : Mem) (q : Arr)
    (hq : ∀ v < 4, ∀ ek < nz, ∀ ei < nx, ∀ k < n, ∀ i < n, q v ek ei (k * n + i) = U v (place x0 Δx ei (pts i)) (place z0 Δz ek (pts k)))
    (v : Nat) (hv : v < 4) (fx : ∀ z, PolyBelow (n + 2) fun x => physFlux U 0 v x z) (fz : ∀ x, PolyBelow (n + 2) fun z => physFlux U 1 v x z)
    (ek : Nat) (hek : ek < nz) (ei : Nat) (hei : ei < nx) (k : Nat) (hk : k < n) (i : Nat) (hi : i < n) :
    (call n nx nz pts Δx Δz mem q).2 v ek ei (k * n + i) =
      -(deriv (fun x => physFlux U 0 v x (place z0 Δz ek (pts k))) (place x0 Δx ei (pts i))
        + deriv (fun z => physFlux U 1 v (place x0 Δx ei (pts i)) z) (place z0 Δz ek (pts k)))
      - (if v = 2 then U 0 (place x0 Δx ei (pts i)) (place z0 Δz ek (pts k)) * gravity else 0)
      + (if v = 1 then 2 / Δx * (corrWest n pts i * faceX x0 Δx U ei (place z0 Δz ek (pts k)) + corrEast n pts i * faceX x0 Δx U (ei + 1) (place z0 Δz ek (pts k))) else 0)
      + (if v = 2 then 2 / Δz * (corrWest n pts k * faceZ z0 Δz U ek (place x0 Δx ei (pts i)) + corrEast n pts k * faceZ z0 Δz U (ek + 1) (place x0 Δx ei (pts i))) else 0) := by
  have hinj := pts_inj S.points
  have hx0 : 0 < nx := by omega
  have hz0 : 0 < nz := by omega
  have p0' : ∀ x0 Δ : ℝ, place x0 Δ 0 (-1) = x0 := by intro x0 Δ; simp [place]
  have pN : ∀ (x0 Δ : ℝ) (N : Nat), place x0 Δ N (-1) = x0 + Δ * N := by intro x0 Δ N; simp [place]
  -- states at the faces
  have face1 : ∀ (kk : Nat), kk < n → ∀ e < nx, ∀ s : Bool, EulerCartesian.read (qItf1 n pts q) ek e (slot n kk s) =
      stateAt U (place x0 Δx (if s then e + 1 else e) (-1)) (place z0 Δz ek (pts kk)) := by
    intro kk hkk e he s
    apply read_eq _ _ _ _ (fun w => U w (place x0 Δx (if s then e + 1 else e) (-1)) (place z0 Δz ek (pts kk)))
    intro w hw
    obtain ⟨p, hp, hpe, -⟩ := polyBelow_place (S.polyX w hw (place z0 Δz ek (pts kk))) x0 Δx S.width.ne' e
    rw [qItf1_line n pts q w ek e kk hkk s, extrapVec_exact hinj hp _ (fun a ha => by rw [hq w hw ek hek e he kk hkk a ha, hpe]), ← hpe]
    cases s
    · rfl
    · simp only [if_true]; rw [place_face]
  have face3 : ∀ (ii : Nat), ii < n → ∀ e < nz, ∀ s : Bool, EulerCartesian.read (qItf3 n pts q) e ei (slot n ii s) =
      stateAt U (place x0 Δx ei (pts ii)) (place z0 Δz (if s then e + 1 else e) (-1)) := by
    intro ii hii e he s
    apply read_eq _ _ _ _ (fun w => U w (place x0 Δx ei (pts ii)) (place z0 Δz (if s then e + 1 else e) (-1)))
    intro w hw
    obtain ⟨p, hp, hpe, -⟩ := polyBelow_place (S.polyZ w hw (place x0 Δx ei (pts ii))) z0 Δz S.height.ne' e
    rw [qItf3_line n pts q w e ei ii hii s, extrapVec_exact hinj hp _ (fun a ha => by rw [hq w hw e he ei hei a ha ii hii, hpe]), ← hpe]
    cases s
    · rfl
    · simp only [if_true]; rw [place_face]
  have inX : ∀ e ≤ nx, x0 ≤ place x0 Δx e (-1) ∧ place x0 Δx e (-1) ≤ x0 + Δx * nx := by
    intro e he
    have he' : (e : ℝ) ≤ nx := by exact_mod_cast he
    rw [pN]
    exact ⟨by have := mul_nonneg S.width.le (Nat.cast_nonneg (α := ℝ) e); linarith, by have := mul_le_mul_of_nonneg_left he' S.width.le; linarith⟩
  have inZ : ∀ e ≤ nz, z0 ≤ place z0 Δz e (-1) ∧ place z0 Δz e (-1) ≤ z0 + Δz * nz := by
    intro e he
    have he' : (e : ℝ) ≤ nz := by exact_mod_cast he
    rw [pN]
    exact ⟨by have := mul_nonneg S.height.le (Nat.cast_nonneg (α := ℝ) e); linarith, by have := mul_le_mul_of_nonneg_left he' S.height.le; linarith⟩
  have bX : ∀ a < n, ∀ e < nx, x0 ≤ place x0 Δx e (pts a) ∧ place x0 Δx e (pts a) ≤ x0 + Δx * nx := fun a ha e he =>
    place_bounds x0 Δx S.width he (S.inside a ha).1 (S.inside a ha).2
  have bZ : ∀ a < n, ∀ e < nz, z0 ≤ place z0 Δz e (pts a) ∧ place z0 Δz e (pts a) ≤ z0 + Δz * nz := fun a ha e he =>
    place_bounds z0 Δz S.height he (S.inside a ha).1 (S.inside a ha).2
  -- fluxes at the faces
  have itf1 : ∀ (old : Arr) (s : Bool), riemann1 n nx (qItf1 n pts q) old v ek ei (slot n k s) =
      physFlux U 0 v (place x0 Δx (if s then ei + 1 else ei) (-1)) (place z0 Δz ek (pts k))
        - (if v = 1 then faceX x0 Δx U (if s then ei + 1 else ei) (place z0 Δz ek (pts k)) else 0) := by
    intro old s
    have e1 : (if slot n k s < n then slot n k s else slot n k s - n) = k ∧ decide (n ≤ slot n k s) = s := by
      cases s
      · simp [slot, hk]
      · simp [slot]
    simp only [riemann1, e1.1, e1.2, field_comp]
    rw [line_physical 0 nx (by norm_num) hx0 _ _ (fun f => stateAt U (place x0 Δx f (-1)) (place z0 Δz ek (pts k))) (fun e he => face1 k hk e he false) (fun e he => face1 k hk e he true)
      (fun e he => S.density _ _ (inX e he).1 (inX e he).2 (bZ k hk ek hek).1 (bZ k hk ek hek).2)
      (fun e he => S.theta _ _ (inX e he).1 (inX e he).2 (bZ k hk ek hek).1 (bZ k hk ek hek).2)
      (by simp only [stateAt, comp, zero_add, one_ne_zero, if_false, if_true]; rw [p0']; exact (S.wallsX _).1)
      (by simp only [stateAt, comp, zero_add, one_ne_zero, if_false, if_true]; rw [pN]; exact (S.wallsX _).2) v hv ei hei s]
    congr 1
    exact euler2_mk 0 (by norm_num) _ (fun w => U w (place x0 Δx (if s then ei + 1 else ei) (-1)) (place z0 Δz ek (pts k))) v hv
  have itf3 : ∀ (old : Arr) (s : Bool), riemann3 n nz (qItf3 n pts q) old v ek ei (slot n i s) =
      physFlux U 1 v (place x0 Δx ei (pts i)) (place z0 Δz (if s then ek + 1 else ek) (-1))
        - (if v = 2 then faceZ z0 Δz U (if s then ek + 1 else ek) (place x0 Δx ei (pts i)) else 0) := by
    intro old s
    have e1 : (if slot n i s < n then slot n i s else slot n i s - n) = i ∧ decide (n ≤ slot n i s) = s := by
      cases s
      · simp [slot, hi]
      · simp [slot]
    simp only [riemann3, e1.1, e1.2, field_comp]
    rw [line_physical 1 nz (by norm_num) hz0 _ _ (fun f => stateAt U (place x0 Δx ei (pts i)) (place z0 Δz f (-1))) (fun e he => face3 i hi e he false) (fun e he => face3 i hi e he true)
      (fun e he => S.density _ _ (bX i hi ei hei).1 (bX i hi ei hei).2 (inZ e he).1 (inZ e he).2)
      (fun e he => S.theta _ _ (bX i hi ei hei).1 (bX i hi ei hei).2 (inZ e he).1 (inZ e he).2)
      (by simp only [stateAt, comp, Nat.reduceAdd, OfNat.ofNat_ne_zero, OfNat.ofNat_ne_one, if_false, if_true]; rw [p0']; exact (S.wallsZ _).1)
      (by simp only [stateAt, comp, Nat.reduceAdd, OfNat.ofNat_ne_zero, OfNat.ofNat_ne_one, if_false, if_true]; rw [pN]; exact (S.wallsZ _).2) v hv ek hek s]
    congr 1
    exact euler2_mk 1 (by norm_num) _ (fun w => U w (place x0 Δx ei (pts i)) (place z0 Δz (if s then ek + 1 else ek) (-1))) v hv
  -- fluxes at the solution points
  have inner : ∀ d < 2, ∀ kk < n, ∀ ii < n, pointwise d q v ek ei (kk * n + ii) = physFlux U d v (place x0 Δx ei (pts ii)) (place z0 Δz ek (pts kk)) := by
    intro d hd kk hkk ii hii
    have hr := read_eq q ek ei (kk * n + ii) (fun w => U w (place x0 Δx ei (pts ii)) (place z0 Δz ek (pts kk)))
      (fun w hw => hq w hw ek hek ei hei kk hkk ii hii)
    have hb := bX ii hii ei hei
    have hb' := bZ kk hkk ek hek
    simp only [pointwise, field_comp, hr]
    rw [C45_pointwise_cartesian d hd _ (S.density _ _ hb.1 hb.2 hb'.1 hb'.2).ne' (S.theta _ _ hb.1 hb.2 hb'.1 hb'.2) v hv]
    exact euler2_mk d hd _ (fun w => U w (place x0 Δx ei (pts ii)) (place z0 Δz ek (pts kk))) v hv
  obtain ⟨px, hpx, ex, dx⟩ := polyBelow_place (fx (place z0 Δz ek (pts k))) x0 Δx S.width.ne' ei
  obtain ⟨pz, hpz, ez, dz⟩ := polyBelow_place (fz (place x0 Δx ei (pts i))) z0 Δz S.height.ne' ek
  have sl : ∀ l : Nat, slot n l false = l ∧ slot n l true = n + l := fun l => ⟨rfl, rfl⟩
  have D1 : ∀ o1 : Arr, df1_2d n pts (pointwise 0 q v ek ei) (riemann1 n nx (qItf1 n pts q) o1 v ek ei) (k * n + i) =
      (derivative px).eval (pts i) - (if v = 1 then corrWest n pts i * faceX x0 Δx U ei (place z0 Δz ek (pts k))
        + corrEast n pts i * faceX x0 Δx U (ei + 1) (place z0 Δz ek (pts k)) else 0) := by
    intro o1
    have f0 := itf1 o1 false
    have f1 := itf1 o1 true
    simp only [sl, Bool.false_eq_true, if_false, if_true] at f0 f1
    rw [← place_face, ex] at f1
    rw [ex] at f0
    rw [df1_2d_line pts _ _ hk hi, lineDeriv, f0, f1, ← C42_corrected n pts S.points px hpx i hi]
    have : ∑ a ∈ Finset.range n, diffSolpt n pts i a * pointwise 0 q v ek ei (k * n + a) = ∑ a ∈ Finset.range n, diffSolpt n pts i a * px.eval (pts a) :=
      Finset.sum_congr rfl fun a ha => by rw [inner 0 (by norm_num) k hk a (Finset.mem_range.mp ha), ex]
    rw [this]
    split_ifs <;> ring
  have D3 : ∀ o3 : Arr, df2_2d n pts (pointwise 1 q v ek ei) (riemann3 n nz (qItf3 n pts q) o3 v ek ei) (k * n + i) =
      (derivative pz).eval (pts k) - (if v = 2 then corrWest n pts k * faceZ z0 Δz U ek (place x0 Δx ei (pts i))
        + corrEast n pts k * faceZ z0 Δz U (ek + 1) (place x0 Δx ei (pts i)) else 0) := by
    intro o3
    have f0 := itf3 o3 false
    have f1 := itf3 o3 true
    simp only [sl, Bool.false_eq_true, if_false, if_true] at f0 f1
    rw [← place_face, ez] at f1
    rw [ez] at f0
    rw [df2_2d_line pts _ _ hi, lineDeriv, f0, f1, ← C42_corrected n pts S.points pz hpz k hk]
    have : ∑ a ∈ Finset.range n, diffSolpt n pts k a * pointwise 1 q v ek ei (a * n + i) = ∑ a ∈ Finset.range n, diffSolpt n pts k a * pz.eval (pts a) :=
      Finset.sum_congr rfl fun a ha => by rw [inner 1 (by norm_num) a (Finset.mem_range.mp ha) i hi, ez]
    rw [this]
    split_ifs <;> ring
  simp only [call, rhsCartesian]
  rw [D1, D3, ← dx, ← dz]
  have hv' : v = 0 ∨ v = 1 ∨ v = 2 ∨ v = 3 := by omega
  rcases hv' with rfl | rfl | rfl | rfl
  · simp; ring
  · simp; ring
  · simp only [if_true, OfNat.ofNat_ne_one, if_false]; rw [hq 0 (by omega) ek hek ei hei k hk i hi]; ring
  · simp; ring

/-- **C66**, Cartesian model.  If every variable is, along each coordinate line, a polynomial the elements represent exactly, air does not
flow through the walls, and the physical fluxes of variable `v` along the lines are polynomials of degree at most `n + 1`, then at every
solution point of every element the tendency of `v` is minus the divergence of the physical flux (and minus the weight, for the vertical
momentum).  Missing from the full property: for a momentum component this is shown only when air does not flow, along that component,
through any face between elements; otherwise it is false, see `C66_cartesian_fails`. -/
theorem C66_cartesian_partial {n nx nz : Nat} {pts : Nat → ℝ} {x0 z0 Δx Δz : ℝ} {U : Nat → ℝ → ℝ → ℝ}
    (S : Setting n nx nz pts x0 z0 Δx Δz U) (mem : Mem) (q : Arr)
    (hq : ∀ v < 4, ∀ ek < nz, ∀ ei < nx, ∀ k < n, ∀ i < n, q v ek ei (k * n + i) = U v (place x0 Δx ei (pts i)) (place z0 Δz ek (pts k)))
    (v : Nat) (hv : v < 4) (fx : ∀ z, PolyBelow (n + 2) fun x => physFlux U 0 v x z) (fz : ∀ x, PolyBelow (n + 2) fun z => physFlux U 1 v x z)
    (h1 : v = 1 → ∀ e ≤ nx, ∀ z, U 1 (place x0 Δx e (-1)) z = 0) (h2 : v = 2 → ∀ e ≤ nz, ∀ x, U 2 x (place z0 Δz e (-1)) = 0)
    (ek : Nat) (hek : ek < nz) (ei : Nat) (hei : ei < nx) (k : Nat) (hk : k < n) (i : Nat) (hi : i < n) :
    (call n nx nz pts Δx Δz mem q).2 v ek ei (k * n + i) =
      -(deriv (fun x => physFlux U 0 v x (place z0 Δz ek (pts k))) (place x0 Δx ei (pts i))
        + deriv (fun z => physFlux U 1 v (place x0 Δx ei (pts i)) z) (place z0 Δz ek (pts k)))
      - (if v = 2 then U 0 (place x0 Δx ei (pts i)) (place z0 Δz ek (pts k)) * gravity else 0) := by
  rw [tendency_exact S mem q hq v hv fx fz ek hek ei hei k hk i hi]
  have a1 : (if v = 1 then 2 / Δx * (corrWest n pts i * faceX x0 Δx U ei (place z0 Δz ek (pts k)) + corrEast n pts i * faceX x0 Δx U (ei + 1) (place z0 Δz ek (pts k))) else 0) = 0 := by
    split
    · next h => simp [faceX, h1 h ei hei.le, h1 h (ei + 1) hei]
    · rfl
  have a2 : (if v = 2 then 2 / Δz * (corrWest n pts k * faceZ z0 Δz U ek (place x0 Δx ei (pts i)) + corrEast n pts k * faceZ z0 Δz U (ek + 1) (place x0 Δx ei (pts i))) else 0) = 0 := by
    split
    · next h => simp [faceZ, h2 h ek hek.le, h2 h (ek + 1) hek]
    · rfl
  rw [a1, a2]; ring

/-- the correction of a point by the value at the upper end of its line is never zero -/
theorem corrEast_ne {n : Nat} {pts : Nat → ℝ} (h : Set.InjOn (extension n pts) (Finset.range (n + 2))) {i : Nat} (hi : i < n) : corrEast n pts i ≠ 0 := by
  have hinj := pts_inj h
  have hm : ∀ a < n, pts a ≠ -1 ∧ pts a ≠ 1 := by
    intro a ha
    constructor
    · intro hc
      have := @h (a + 1) (by simp; omega) 0 (by simp) (by rw [extension_mid pts ha, extension_zero, hc])
      omega
    · intro hc
      have := @h (a + 1) (by simp; omega) (n + 1) (by simp) (by rw [extension_mid pts ha, extension_last, hc])
      omega
  set r : ℝ[X] := (X - C (-1)) * ∏ a ∈ (Finset.range n).erase i, (X - C (pts a)) with hr
  set p : ℝ[X] := (X - C (pts i)) * r with hp
  have hdeg : p.degree < ((n + 2 : Nat) : WithBot Nat) := by
    have : p.degree ≤ ((n + 1 : Nat) : WithBot Nat) := by
      rw [hp, hr, degree_mul, degree_mul, degree_prod]
      simp only [degree_X_sub_C, Finset.sum_const, Finset.card_erase_of_mem (Finset.mem_range.mpr hi), Finset.card_range, nsmul_eq_mul, mul_one]
      have : ((1 : WithBot Nat) + (1 + ((n - 1 : Nat) : WithBot Nat))) = ((1 + (1 + (n - 1)) : Nat) : WithBot Nat) := by push_cast; rfl
      rw [this]
      exact_mod_cast (by omega : 1 + (1 + (n - 1)) ≤ n + 1)
    exact lt_of_le_of_lt this (by exact_mod_cast Nat.lt_succ_self (n + 1))
  have zero : ∀ a < n, p.eval (pts a) = 0 := by
    intro a ha
    by_cases hai : a = i
    · simp [hp, hai]
    · rw [hp, hr, eval_mul, eval_mul, eval_prod]
      rw [Finset.prod_eq_zero (Finset.mem_erase.mpr ⟨hai, Finset.mem_range.mpr ha⟩) (by simp)]
      ring
  have west : p.eval (-1) = 0 := by simp [hp, hr]
  have key := C42_corrected n pts h p hdeg i hi
  rw [Finset.sum_eq_zero (fun a ha => by rw [zero a (Finset.mem_range.mp ha), mul_zero]), west, mul_zero, add_zero, zero_add] at key
  have d : (derivative p).eval (pts i) = r.eval (pts i) := by simp [hp, derivative_mul]
  have rne : r.eval (pts i) ≠ 0 := by
    rw [hr, eval_mul, eval_prod]
    refine mul_ne_zero ?_ (Finset.prod_ne_zero_iff.mpr ?_)
    · simp only [eval_sub, eval_X, eval_C]; intro hc; exact (hm i hi).1 (by linarith)
    · intro a ha
      obtain ⟨h1, h2⟩ := Finset.mem_erase.mp ha
      simp only [eval_sub, eval_X, eval_C]
      intro hc
      exact h1 (hinj h2 (Finset.mem_coe.mpr (Finset.mem_range.mpr hi)) (by linarith)).symm.symm
  intro hc
  rw [hc, zero_mul, d] at key
  exact rne key.symm

/-- **C66 is violated** by the momentum equations of the Cartesian model, for every polynomial flow: in the column of elements next to the
left wall, wherever air flows through the face to the second column, the tendency of the horizontal momentum is not minus the divergence of
the momentum flux, at any solution point of that row. -/
theorem C66_cartesian_fails {n nx nz : Nat} {pts : Nat → ℝ} {x0 z0 Δx Δz : ℝ} {U : Nat → ℝ → ℝ → ℝ}
    (S : Setting n nx nz pts x0 z0 Δx Δz U) (mem : Mem) (q : Arr)
    (hq : ∀ v < 4, ∀ ek < nz, ∀ ei < nx, ∀ k < n, ∀ i < n, q v ek ei (k * n + i) = U v (place x0 Δx ei (pts i)) (place z0 Δz ek (pts k)))
    (hnx : 2 ≤ nx) (fx : ∀ z, PolyBelow (n + 2) fun x => physFlux U 0 1 x z) (fz : ∀ x, PolyBelow (n + 2) fun z => physFlux U 1 1 x z)
    (ek : Nat) (hek : ek < nz) (k : Nat) (hk : k < n) (hflow : U 1 (x0 + Δx) (place z0 Δz ek (pts k)) ≠ 0) (i : Nat) (hi : i < n) :
    (call n nx nz pts Δx Δz mem q).2 1 ek 0 (k * n + i) ≠
      -(deriv (fun x => physFlux U 0 1 x (place z0 Δz ek (pts k))) (place x0 Δx 0 (pts i))
        + deriv (fun z => physFlux U 1 1 (place x0 Δx 0 (pts i)) z) (place z0 Δz ek (pts k))) := by
  rw [tendency_exact S mem q hq 1 (by omega) fx fz ek hek 0 (by omega) k hk i hi]
  have p1 : place x0 Δx (0 + 1) (-1) = x0 + Δx := by simp [place]
  have p0' : place x0 Δx 0 (-1) = x0 := by simp [place]
  have hb := place_bounds z0 Δz S.height hek (S.inside k hk).1 (S.inside k hk).2
  have hnx' : (2 : ℝ) ≤ nx := by exact_mod_cast hnx
  have hpos : 0 < U 0 (x0 + Δx) (place z0 Δz ek (pts k)) :=
    S.density _ _ (by linarith [S.width]) (by nlinarith [S.width]) hb.1 hb.2
  have f0 : faceX x0 Δx U 0 (place z0 Δz ek (pts k)) = 0 := by simp [faceX, p0', (S.wallsX _).1]
  have f1 : faceX x0 Δx U (0 + 1) (place z0 Δz ek (pts k)) ≠ 0 := by
    rw [faceX, p1]; exact div_ne_zero (pow_ne_zero 2 hflow) hpos.ne'
  rw [f0]
  have : 2 / Δx * (corrWest n pts i * 0 + corrEast n pts i * faceX x0 Δx U (0 + 1) (place z0 Δz ek (pts k))) ≠ 0 := by
    rw [mul_zero, zero_add]
    exact mul_ne_zero (div_ne_zero two_ne_zero S.width.ne') (mul_ne_zero (corrEast_ne S.points hi) f1)
  simp only [if_true, OfNat.one_ne_ofNat, if_false, add_zero, sub_zero]
  intro hc
  apply this
  linarith

/-! ## A flow that meets the hypotheses: a vortex between walls -/

/-- a vortex in the unit square, with uniform density and potential temperature -/
noncomputable def vortex (v : Nat) (x z : ℝ) : ℝ :=
  if v = 0 then 1 else if v = 1 then x * (1 - x) * (1 - 2 * z) else if v = 2 then -(1 - 2 * x) * (z * (1 - z)) else 300

theorem polyBelow_const (m : Nat) (hm : 0 < m) (a : ℝ) : PolyBelow m fun _ => a :=
  ⟨C a, lt_of_le_of_lt degree_C_le (by exact_mod_cast hm), by simp⟩

theorem polyBelow_quad (m : Nat) (hm : 2 < m) (a b c : ℝ) : PolyBelow m fun x => a + b * x + c * x ^ 2 :=
  ⟨C a + C b * X + C c * X ^ 2, lt_of_le_of_lt (b := ((2 : Nat) : WithBot Nat)) (by compute_degree; exact le_refl _) (by exact_mod_cast hm), by simp⟩

theorem polyBelow_quart (a b c d e : ℝ) : PolyBelow 5 fun x => a + b * x + c * x ^ 2 + d * x ^ 3 + e * x ^ 4 :=
  ⟨C a + C b * X + C c * X ^ 2 + C d * X ^ 3 + C e * X ^ 4, lt_of_le_of_lt (b := ((4 : Nat) : WithBot Nat)) (by compute_degree; exact le_refl _)
    (by exact_mod_cast (by norm_num)), by simp⟩

theorem vortex_setting : Setting 3 2 2 (fun a => if a = 0 then -1 / 2 else if a = 1 then 0 else 1 / 2) 0 0 (1 / 2) (1 / 2) vortex where
  points := by
    intro a ha b hb h
    have ha' : a < 5 := by simpa using ha
    have hb' : b < 5 := by simpa using hb
    interval_cases a <;> interval_cases b <;> first | rfl | (exfalso; revert h; norm_num [extension])
  inside := by intro a ha; interval_cases a <;> norm_num
  width := by norm_num
  height := by norm_num
  polyX := by
    intro v hv z
    interval_cases v
    · exact polyBelow_const 3 (by norm_num) _
    · convert polyBelow_quad 3 (by norm_num) 0 (1 - 2 * z) (-(1 - 2 * z)) using 2; simp only [vortex, one_ne_zero, if_false, if_true]; ring
    · convert polyBelow_quad 3 (by norm_num) (-(z * (1 - z))) (2 * (z * (1 - z))) 0 using 2
      simp only [vortex, OfNat.ofNat_ne_zero, OfNat.ofNat_ne_one, if_false, if_true]; ring
    · exact polyBelow_const 3 (by norm_num) _
  polyZ := by
    intro v hv x
    interval_cases v
    · exact polyBelow_const 3 (by norm_num) _
    · convert polyBelow_quad 3 (by norm_num) (x * (1 - x)) (-(2 * (x * (1 - x)))) 0 using 2; simp only [vortex, one_ne_zero, if_false, if_true]; ring
    · convert polyBelow_quad 3 (by norm_num) 0 (-(1 - 2 * x)) (1 - 2 * x) using 2
      simp only [vortex, OfNat.ofNat_ne_zero, OfNat.ofNat_ne_one, if_false, if_true]; ring
    · exact polyBelow_const 3 (by norm_num) _
  density := by intro x z _ _ _ _; norm_num [vortex]
  theta := by intro x z _ _ _ _; norm_num [vortex]
  wallsX := by intro z; norm_num [vortex]
  wallsZ := by intro x; norm_num [vortex]

/-- and its fluxes of mass, potential temperature and horizontal momentum are polynomials of low degree -/
theorem vortex_flux (v : Nat) (hv : v = 0 ∨ v = 1 ∨ v = 3) :
    (∀ z, PolyBelow (3 + 2) fun x => physFlux vortex 0 v x z) ∧ (∀ x, PolyBelow (3 + 2) fun z => physFlux vortex 1 v x z) := by
  constructor
  · intro z
    rcases hv with rfl | rfl | rfl
    · convert polyBelow_quart 0 (1 - 2 * z) (-(1 - 2 * z)) 0 0 using 2; norm_num [physFlux, euler2, vortex]; ring
    · convert polyBelow_quart (pressure2 300) 0 ((1 - 2 * z) ^ 2) (-(2 * (1 - 2 * z) ^ 2)) ((1 - 2 * z) ^ 2) using 2; norm_num [physFlux, euler2, vortex]; ring
    · convert polyBelow_quart 0 (300 * (1 - 2 * z)) (-(300 * (1 - 2 * z))) 0 0 using 2; norm_num [physFlux, euler2, vortex]; ring
  · intro x
    rcases hv with rfl | rfl | rfl
    · convert polyBelow_quart 0 (-(1 - 2 * x)) (1 - 2 * x) 0 0 using 2; norm_num [physFlux, euler2, vortex]; ring
    · convert polyBelow_quart 0 (-(1 - 2 * x) * (x * (1 - x))) (3 * (1 - 2 * x) * (x * (1 - x))) (-(2 * (1 - 2 * x) * (x * (1 - x)))) 0 using 2
      norm_num [physFlux, euler2, vortex]; ring
    · convert polyBelow_quart 0 (-(300 * (1 - 2 * x))) (300 * (1 - 2 * x)) 0 0 using 2; norm_num [physFlux, euler2, vortex]; ring

/-- the vortex does not change the density anywhere, but the model gives it a wrong horizontal acceleration -/
example (q : Arr) (mem : Mem) (pts : Nat → ℝ) (hpts : pts = fun a => if a = 0 then -1 / 2 else if a = 1 then 0 else 1 / 2)
    (hq : ∀ v < 4, ∀ ek < 2, ∀ ei < 2, ∀ k < 3, ∀ i < 3, q v ek ei (k * 3 + i) = vortex v (place 0 (1 / 2) ei (pts i)) (place 0 (1 / 2) ek (pts k))) :
    (call 3 2 2 pts (1 / 2) (1 / 2) mem q).2 0 0 0 0 = 0 ∧
    (call 3 2 2 pts (1 / 2) (1 / 2) mem q).2 1 0 0 0 ≠
      -(deriv (fun x => physFlux vortex 0 1 x (place 0 (1 / 2) 0 (pts 0))) (place 0 (1 / 2) 0 (pts 0))
        + deriv (fun z => physFlux vortex 1 1 (place 0 (1 / 2) 0 (pts 0)) z) (place 0 (1 / 2) 0 (pts 0))) := by
  subst hpts
  have f0 := vortex_flux 0 (by simp)
  have f1 := vortex_flux 1 (by simp)
  constructor
  · have := C66_cartesian_partial vortex_setting mem q hq 0 (by norm_num) f0.1 f0.2 (by omega) (by omega) 0 (by norm_num) 0 (by norm_num) 0 (by norm_num) 0
      (by norm_num)
    simp only [Nat.zero_mul, Nat.add_zero] at this
    rw [this]
    have d1 : ∀ x z : ℝ, deriv (fun x => physFlux vortex 0 0 x z) x = (1 - 2 * x) * (1 - 2 * z) := by
      intro x z
      have : (fun x => physFlux vortex 0 0 x z) = fun x => x * (1 - x) * (1 - 2 * z) := by funext x; norm_num [physFlux, euler2, vortex]
      rw [this]
      have h : HasDerivAt (fun x : ℝ => x * (1 - x) * (1 - 2 * z)) ((1 * (1 - x) + x * (0 - 1)) * (1 - 2 * z)) x :=
        ((hasDerivAt_id x).mul ((hasDerivAt_const x (1:ℝ)).sub (hasDerivAt_id x))).mul_const _
      rw [h.deriv]; ring
    have d2 : ∀ x z : ℝ, deriv (fun z => physFlux vortex 1 0 x z) z = -(1 - 2 * x) * (1 - 2 * z) := by
      intro x z
      have : (fun z => physFlux vortex 1 0 x z) = fun z => -(1 - 2 * x) * (z * (1 - z)) := by funext z; norm_num [physFlux, euler2, vortex]
      rw [this]
      have h : HasDerivAt (fun z : ℝ => -(1 - 2 * x) * (z * (1 - z))) (-(1 - 2 * x) * (1 * (1 - z) + z * (0 - 1))) z :=
        ((hasDerivAt_id z).mul ((hasDerivAt_const z (1:ℝ)).sub (hasDerivAt_id z))).const_mul _
      rw [h.deriv]; ring
    rw [d1, d2]
    simp
    ring
  · have := C66_cartesian_fails vortex_setting mem q hq (by norm_num) f1.1 f1.2 0 (by norm_num) 0 (by norm_num) (by norm_num [vortex, place]) 0 (by norm_num)
    simpa only [Nat.zero_mul, Nat.add_zero] using this

end WxVerif.Props.CartesianConsistency
