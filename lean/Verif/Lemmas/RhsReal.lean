import Verif.Lemmas.RhsObject

namespace WxVerif.Tend

theorem IsPos.real {z : ℂ} (h : IsPos z) : IsReal z := h.1

namespace IsReal
variable {a b : ℂ}
theorem add (ha : IsReal a) (hb : IsReal b) : IsReal (a + b) := by unfold IsReal at *; simp [ha, hb]
theorem sub (ha : IsReal a) (hb : IsReal b) : IsReal (a - b) := by unfold IsReal at *; simp [ha, hb]
theorem neg (ha : IsReal a) : IsReal (-a) := by unfold IsReal at *; simp [ha]
theorem mul (ha : IsReal a) (hb : IsReal b) : IsReal (a * b) := by unfold IsReal at *; simp [ha, hb]
theorem div (ha : IsReal a) (hb : IsReal b) : IsReal (a / b) := by unfold IsReal at *; simp [Complex.div_im, ha, hb]
theorem half : IsReal (1 / 2 : ℂ) := by unfold IsReal; norm_num
theorem zero : IsReal 0 := rfl
theorem cast_eq (ha : IsReal a) : RhsObject.cast .real a = a := by
  apply Complex.ext
  · rfl
  · exact (ha.symm : (0 : ℝ) = a.im)
end IsReal

end WxVerif.Tend

namespace WxVerif.RhsObject
open WxVerif.Tend


variable {P K : Type} {N : Numerics P K} (R : RealNumerics N) {q : Fin 5 → P → ℂ} {inbox : Fin 3 → Bool → Fin 5 → K → ℂ} (hq : Air q)
  (hi : ∀ d s, Air (inbox d s))
include R hq

theorem ends_real (d : Fin 3) (v : Fin 5) (e : Nat) (s : Bool) (k : K) : IsReal (ends N q d v e s k) ∧ (v = rho ∨ v = rhotheta → IsPos (ends N q d v e s k)) := by
  unfold ends
  by_cases h : v = rho ∨ v = rhotheta
  · rw [if_pos h]
    have : ∀ x, IsReal (N.lg (q v x)) := by
      intro x
      rcases h with h | h <;> subst h
      · exact R.lg _ (hq.2.1 x)
      · exact R.lg _ (hq.2.2 x)
    have p := R.ex _ (R.extrap d _ this e s k)
    exact ⟨p.real, fun _ => p⟩
  · rw [if_neg h]
    exact ⟨R.extrap d _ (hq.1 v) e s k, fun h' => absurd h' h⟩

theorem inside_real (d : Fin 3) (x : P) : IsReal (velocity q d x) := (hq.1 _ x).div (hq.1 _ x)

theorem pressureIn_pos (x : P) : IsPos (pressureIn N id q x) := R.pressure _ (hq.2.2 x)

omit R hq in
theorem pressed_real (v : Fin 5) {g : Fin 3 → ℂ} (hg : ∀ a, IsReal (g a)) : IsReal (pressed v g) := by
  unfold pressed
  split
  · exact hg _
  · split
    · exact hg _
    · split
      · exact hg _
      · exact IsReal.zero

omit R in
theorem pressureIn_cast (R : RealNumerics N) : pressureIn N (cast .real) q = pressureIn N id q := by
  funext x
  exact (pressureIn_pos R hq x).real.cast_eq

theorem advIn_real (d : Fin 3) (v : Fin 5) (x : P) : IsReal (N.vol x * velocity q d x * q v x) :=
  ((R.vol x).mul (inside_real R hq d x)).mul (hq.1 v x)

theorem inside_isReal (d : Fin 3) (v : Fin 5) (x : P) : IsReal (inside N id q d v x) :=
  (advIn_real R hq d v x).add (pressed_real v fun a => ((R.vol x).mul (R.h d a x)).mul (pressureIn_pos R hq x).real)

theorem inside_cast (d : Fin 3) (v : Fin 5) : inside N (cast .real) q d v = inside N id q d v := by
  funext x
  have h := inside_isReal R hq d v x
  unfold inside at h ⊢
  rw [pressureIn_cast hq R, (advIn_real R hq d v x).cast_eq]
  exact h.cast_eq

theorem source_real (d : Fin 3) (x : P) : IsReal (source N id q d x) ∧ source N (cast .real) q d x = source N id q d x := by
  have hb : IsReal (N.force d (q rho x) (fun a => velocity q a x) (pressureIn N id q x) x) :=
    R.force d _ _ _ x (hq.1 _ x) (fun a => inside_real R hq a x) (pressureIn_pos R hq x).real
  have hg : IsReal (N.force d (q rho x) (fun a => velocity q a x) (pressureIn N id q x) x + N.gravity (q rho) x) :=
    hb.add (R.gravity _ (hq.1 rho) x)
  unfold source
  dsimp only
  rw [pressureIn_cast hq R, hb.cast_eq, hg.cast_eq]
  have hw : IsReal (if d = 2 then id (id (N.force d (q rho x) (fun a => velocity q a x) (pressureIn N id q x) x) + N.gravity (q rho) x)
      else id (N.force d (q rho x) (fun a => velocity q a x) (pressureIn N id q x) x)) := by
    split
    · exact hg
    · exact hb
  cases hD : N.damping with
  | none => exact ⟨hw, rfl⟩
  | some D =>
    have hs := hw.add (R.damping D hD d (q rho x) (velocity q d x) x (hq.1 _ x) (inside_real R hq d x))
    exact ⟨hs, hs.cast_eq⟩

include hi

theorem meets_real (d : Fin 3) (j : Nat) (above : Bool) (v : Fin 5) (k : K) :
    (IsReal (meets N id q inbox d j above v k) ∧ (v = rho ∨ v = rhotheta → IsPos (meets N id q inbox d j above v k))) ∧
      meets N (cast .real) q inbox d j above v k = meets N id q inbox d j above v k := by
  have he := ends_real R hq d v
  have hin : ∀ s, IsReal (inbox d s v k) ∧ (v = rho ∨ v = rhotheta → IsPos (inbox d s v k)) := by
    intro s
    refine ⟨(hi d s).1 v k, ?_⟩
    rintro (h | h) <;> subst h
    · exact (hi d s).2.1 k
    · exact (hi d s).2.2 k
  unfold meets
  split
  · split
    · exact ⟨he _ _ _, (he _ _ _).1.cast_eq⟩
    · split
      · exact ⟨he _ _ _, (he _ _ _).1.cast_eq⟩
      · exact ⟨hin _, (hin _).1.cast_eq⟩
  · split
    · exact ⟨he _ _ _, (he _ _ _).1.cast_eq⟩
    · split
      · exact ⟨he _ _ _, (he _ _ _).1.cast_eq⟩
      · exact ⟨hin _, (hin _).1.cast_eq⟩

theorem meets_cast : meets N (cast .real) q inbox = meets N id q inbox := by
  funext d j a v k; exact (meets_real R hq hi d j a v k).2

theorem across_real (d : Fin 3) (j : Nat) (above : Bool) (k : K) : IsReal (across N id q inbox d j above k) := by
  have h := ((meets_real R hq hi d j above (mom d) k).1.1).div (meets_real R hq hi d j above rho k).1.1
  unfold across
  dsimp only
  split
  · exact h.neg
  · exact h

theorem across_cast : across N (cast .real) q inbox = across N id q inbox := by
  funext d j a k; unfold across; rw [meets_cast R hq hi]

theorem pressureAt_pos (d : Fin 3) (j : Nat) (above : Bool) (k : K) : IsPos (pressureAt N id q inbox d j above k) :=
  R.pressure _ ((meets_real R hq hi d j above rhotheta k).1.2 (Or.inr rfl))

theorem pressureAt_cast : pressureAt N (cast .real) q inbox = pressureAt N id q inbox := by
  funext d j a k
  unfold pressureAt
  rw [meets_cast R hq hi]
  exact (pressureAt_pos R hq hi d j a k).real.cast_eq

theorem advected_real (d : Fin 3) (j : Nat) (above : Bool) (v : Fin 5) (k : K) : IsReal (advected N id q inbox d j above v k) :=
  ((R.volItf ..).mul (across_real R hq hi ..)).mul (meets_real R hq hi ..).1.1

theorem advected_cast : advected N (cast .real) q inbox = advected N id q inbox := by
  funext d j a v k; unfold advected; rw [meets_cast R hq hi, across_cast R hq hi]

theorem pushed_real (d a : Fin 3) (j : Nat) (above : Bool) (k : K) : IsReal (pushed N id q inbox d a j above k) :=
  ((R.volItf ..).mul (R.hItf ..)).mul (pressureAt_pos R hq hi ..).real

theorem pushed_cast : pushed N (cast .real) q inbox = pushed N id q inbox := by
  funext d a j b k; unfold pushed; rw [pressureAt_cast R hq hi]

theorem fastest_real (d : Fin 3) (j : Nat) (k : K) : IsReal (fastest N id q inbox d j k) := by
  have one : ∀ above, IsReal (N.speed (N.hItf d d (touching j above).1 (touching j above).2 k) (pressureAt N id q inbox d j above k)
      (meets N id q inbox d j above rho k) (across N id q inbox d j above k)) := fun above =>
    R.speed _ _ _ _ (R.hItf_pos ..) (pressureAt_pos R hq hi ..) ((meets_real R hq hi d j above rho k).1.2 (Or.inl rfl)) (across_real R hq hi ..)
  exact R.larger _ _ (one false) (one true)

theorem fastest_cast : fastest N (cast .real) q inbox = fastest N id q inbox := by
  funext d j k; unfold fastest; rw [meets_cast R hq hi, across_cast R hq hi, pressureAt_cast R hq hi]

theorem upwind_real (d : Fin 3) (j : Nat) (v : Fin 5) (k : K) : IsReal (upwind N id q inbox d j v k) :=
  ((fastest_real R hq hi ..).mul (R.volItf ..)).mul ((meets_real R hq hi ..).1.1.sub (meets_real R hq hi ..).1.1)

theorem upwind_cast : upwind N (cast .real) q inbox = upwind N id q inbox := by
  funext d j v k; unfold upwind; rw [meets_cast R hq hi, fastest_cast R hq hi]

theorem flux_real (d : Fin 3) (j : Nat) (v : Fin 5) (k : K) : IsReal (flux N id q inbox d j v k) :=
  IsReal.half.mul ((((advected_real R hq hi ..).add (pressed_real v fun a => pushed_real R hq hi ..)).add
    ((advected_real R hq hi ..).add (pressed_real v fun a => pushed_real R hq hi ..))).sub (upwind_real R hq hi ..))

theorem flux_cast : flux N (cast .real) q inbox = flux N id q inbox := by
  funext d j v k
  have h := flux_real R hq hi d j v k
  unfold flux at h ⊢
  rw [advected_cast R hq hi, pushed_cast R hq hi, upwind_cast R hq hi]
  exact h.cast_eq

theorem fluxW_real (d : Fin 3) (j : Nat) (k : K) : IsReal (fluxW N id q inbox d j k) :=
  IsReal.half.mul (((advected_real R hq hi ..).add (advected_real R hq hi ..)).sub (upwind_real R hq hi ..))

theorem fluxW_cast : fluxW N (cast .real) q inbox = fluxW N id q inbox := by
  funext d j k
  have h := fluxW_real R hq hi d j k
  unfold fluxW at h ⊢
  rw [advected_cast R hq hi, upwind_cast R hq hi]
  exact h.cast_eq

theorem fluxWp_real (d : Fin 3) (j : Nat) (a : Bool) (k : K) : IsReal (fluxWp N id q inbox d j a k) :=
  (IsReal.half.mul ((pushed_real R hq hi ..).add (pushed_real R hq hi ..))).div (pressureAt_pos R hq hi ..).real

theorem fluxWp_cast : fluxWp N (cast .real) q inbox = fluxWp N id q inbox := by
  funext d j a k
  have h := fluxWp_real R hq hi d j a k
  unfold fluxWp at h ⊢
  rw [pushed_cast R hq hi, pressureAt_cast R hq hi]
  exact h.cast_eq

omit R hq hi in
theorem seen_real (n : Nat) {F : Nat → Bool → K → ℂ} (h : ∀ j a k, IsReal (F j a k)) (e : Nat) (s : Bool) (k : K) : IsReal (seen n F e s k) := by
  unfold seen
  split
  · split
    · exact h ..
    · exact h ..
  · exact IsReal.zero

theorem divergence_real (d : Fin 3) (v : Fin 5) (x : P) : IsReal (divergence N id q inbox d v x) ∧
    divergence N (cast .real) q inbox d v x = divergence N id q inbox d v x := by
  constructor
  · exact (R.deriv _ _ (inside_isReal R hq d v) x).add (R.correct _ _ (seen_real _ fun _ _ _ => flux_real R hq hi ..) x)
  · unfold divergence
    rw [inside_cast R hq, flux_cast R hq hi]

theorem divergenceW_real (d : Fin 3) (x : P) : IsReal (divergenceW N id q inbox d x) ∧
    divergenceW N (cast .real) q inbox d x = divergenceW N id q inbox d x := by
  have hm : ∀ y, IsReal (N.vol y * N.h d 2 y) := fun y => (R.vol y).mul (R.h d 2 y)
  have hl : ∀ y, IsReal (N.lg (pressureIn N id q y)) := fun y => R.lg _ (pressureIn_pos R hq y)
  have hp := (pressureIn_pos R hq x).real
  constructor
  · exact (((R.deriv _ _ (advIn_real R hq d rhow) x).add (R.correct _ _ (seen_real _ fun _ _ _ => fluxW_real R hq hi ..) x)).add
      (((R.deriv _ _ hm x).add (R.correct _ _ (seen_real _ fun _ _ _ => fluxWp_real R hq hi ..) x)).mul hp)).add
      (((R.deriv _ _ hl x).add (R.correct _ _ (seen_real _ fun _ _ _ => R.lg _ (pressureAt_pos R hq hi ..)) x)).mul (hp.mul (hm x)))
  · unfold divergenceW
    rw [pressureIn_cast hq R, fluxW_cast R hq hi, fluxWp_cast R hq hi, pressureAt_cast R hq hi]
    simp only [(advIn_real R hq d rhow _).cast_eq, (hm _).cast_eq, (hl _).cast_eq]
    rfl

theorem tendency_real : tendency N (cast .real) q inbox = tendency N id q inbox := by
  funext v x
  have hD := fun d => divergence_real R hq hi d v x
  have hW := fun d => divergenceW_real R hq hi d x
  have hS := fun d => source_real R hq d x
  have adv := ((R.invVol x).neg).mul (((hD 0).1.add (hD 1).1).add (hD 2).1)
  have advW := ((R.invVol x).neg).mul (((hW 0).1.add (hW 1).1).add (hW 2).1)
  unfold tendency
  split
  · rfl
  · split
    · simp only [(hW _).2, (hS _).2, (hW _).1.cast_eq]
      rw [advW.cast_eq, (advW.sub (hS 2).1).cast_eq]
      rfl
    · dsimp only
      simp only [(hD _).2, (hS _).2, adv.cast_eq]
      split
      · exact (adv.sub (hS 0).1).cast_eq
      · split
        · exact (adv.sub (hS 1).1).cast_eq
        · exact (adv.sub IsReal.zero).cast_eq

end WxVerif.RhsObject
