import Verif.Model.RhsObject
import Mathlib.Tactic.FinCases
import Mathlib.Tactic.Ring

namespace WxVerif.RhsObject
open WxVerif.Tend

variable {P K : Type} (N : Numerics P K) (t : Dt)

theorem cast_cast (z : ℂ) : cast t (cast t z) = cast t z := by cases t <;> simp [cast]

theorem cast_zero : cast t 0 = 0 := by cases t <;> simp [cast]

theorem allocatePoints_dt (junk : Fin 5 → P → ℂ) (o : Option (Points P)) : (allocatePoints junk t o).dt = t := by
  cases o with
  | none => rfl
  | some b => unfold allocatePoints; dsimp only; split
              · rfl
              · next h => simpa using h

theorem allocateFaces_dt (o : Option (Faces K)) : (allocateFaces t o).dt = t := by
  cases o with
  | none => rfl
  | some b => unfold allocateFaces; dsimp only; split
              · rfl
              · next h => simpa using h

theorem endCommunication_halo (inbox : Fin 3 → Bool → Fin 5 → K → ℂ) (o : Option (Halos K)) (d : Fin 3) (s : Bool) (v : Fin 5) (k : K) :
    (endCommunication t inbox o).halo d s v k = cast t (inbox d s v k) := by
  cases o with
  | none => rfl
  | some b => by_cases h : b.dt = t
              · simp [endCommunication, h]
              · simp [endCommunication, h]

theorem extrapolation_eq (q : Fin 5 → P → ℂ) (d : Fin 3) (v : Fin 5) : extrapolation N q d v = ends N q d v := by
  unfold extrapolation ends
  dsimp only
  by_cases h0 : v = 0
  · subst h0; simp [rho, rhotheta]
  · by_cases h4 : v = 4
    · subst h4; simp [rho, rhotheta]
    · simp [h0, h4, rho, rhotheta]

section faces
variable (q : Fin 5 → P → ℂ) (inbox halo : Fin 3 → Bool → Fin 5 → K → ℂ) (hh : ∀ d s v k, halo d s v k = cast t (inbox d s v k))
  (hn : 0 < N.count 2) (a : Fin 3 → Fin 5 → Nat → Bool → K → ℂ)
include hh hn

theorem full_below (d : Fin 3) (v : Fin 5) {j : Nat} (hj : j ≤ N.count d) (k : K) :
    fillFull N t (extrapolation N q) halo a d v j true k = meets N (cast t) q inbox d j false v k := by
  unfold fillFull meets
  dsimp only
  have hj1 : j ≠ N.count d + 1 := by omega
  by_cases hd : d = 2
  · subst hd
    rw [if_pos rfl]
    rcases Nat.eq_zero_or_pos j with h0 | h0
    · subst h0
      have e : (0 : Nat) ≠ N.count 2 + 1 := by omega
      have e1 : 1 ≤ N.count 2 := hn
      simp [setAt, setMid, cast_cast, extrapolation_eq, e1]
    · have : j ≠ 0 := by omega
      have e1 : 1 ≤ j := h0
      simp [setAt, setMid, hj1, this, e1, hj, extrapolation_eq, h0]
  · rw [if_neg hd]
    rcases Nat.eq_zero_or_pos j with h0 | h0
    · subst h0
      simp [setAt, hd, hh, cast_cast]
    · have : j ≠ 0 := by omega
      have e1 : 1 ≤ j := h0
      simp [setAt, setMid, this, e1, hj, extrapolation_eq, h0]

theorem full_above (d : Fin 3) (v : Fin 5) {j : Nat} (hj : j ≤ N.count d) (k : K) :
    fillFull N t (extrapolation N q) halo a d v (j + 1) false k = meets N (cast t) q inbox d j true v k := by
  unfold fillFull meets
  dsimp only
  by_cases hd : d = 2
  · subst hd
    rw [if_pos rfl]
    rcases Nat.lt_or_ge j (N.count 2) with h0 | h0
    · have e : j ≠ N.count 2 := by omega
      have e1 : j + 1 ≤ N.count 2 := h0
      simp [setAt, setMid, e, e1, h0, extrapolation_eq]
    · have e : j = N.count 2 := by omega
      subst e
      have e1 : N.count 2 ≠ 0 := by omega
      have e2 : 1 ≤ N.count 2 := hn
      simp [setAt, setMid, cast_cast, extrapolation_eq, e1, e2]
  · rw [if_neg hd]
    rcases Nat.lt_or_ge j (N.count d) with h0 | h0
    · have e : j ≠ N.count d := by omega
      have e1 : j + 1 ≤ N.count d := h0
      simp [setAt, setMid, e, e1, h0, extrapolation_eq]
    · have e : j = N.count d := by omega
      subst e
      simp [setAt, hd, hh, cast_cast]

theorem velocity_below (d : Fin 3) {j : Nat} (hj : j ≤ N.count d) (k : K) :
    normalVelocity N (fillFull N t (extrapolation N q) halo a d) d j true k = across N (cast t) q inbox d j false k := by
  unfold normalVelocity across
  dsimp only
  by_cases hd : d = 2
  · subst hd
    rw [if_pos rfl]
    have hj1 : j ≠ N.count 2 + 1 := by omega
    rcases Nat.eq_zero_or_pos j with h0 | h0
    · subst h0
      have a1 := full_above N t q inbox halo hh hn a 2 3 (j := 0) (by omega) k
      have a2 := full_above N t q inbox halo hh hn a 2 0 (j := 0) (by omega) k
      have m : ∀ v, meets N (cast t) q inbox 2 0 true v k = meets N (cast t) q inbox 2 0 false v k := by
        intro v; simp [meets, hn]
      simp only [Nat.zero_add] at a1 a2
      have e : (0 : Nat) ≠ N.count 2 + 1 := by omega
      simp [setAt, cast, a1, a2, m, mom, rho]
    · have e : j ≠ 0 := by omega
      have a1 := full_below N t q inbox halo hh hn a 2 3 (j := j) hj k
      have a2 := full_below N t q inbox halo hh hn a 2 0 (j := j) hj k
      simp [setAt, hj1, e, a1, a2, mom, rho]
  · rw [if_neg hd]
    have a1 := fun v => full_below N t q inbox halo hh hn a d v (j := j) hj k
    simp only [a1, hd, false_and, if_false]

theorem velocity_above (d : Fin 3) {j : Nat} (hj : j ≤ N.count d) (k : K) :
    normalVelocity N (fillFull N t (extrapolation N q) halo a d) d (j + 1) false k = across N (cast t) q inbox d j true k := by
  unfold normalVelocity across
  dsimp only
  by_cases hd : d = 2
  · subst hd
    rw [if_pos rfl]
    rcases Nat.lt_or_ge j (N.count 2) with h0 | h0
    · have e : j ≠ N.count 2 := by omega
      have a1 := full_above N t q inbox halo hh hn a 2 3 (j := j) hj k
      have a2 := full_above N t q inbox halo hh hn a 2 0 (j := j) hj k
      simp [setAt, e, a1, a2, mom, rho]
    · have e : j = N.count 2 := by omega
      subst e
      have a1 := full_below N t q inbox halo hh hn a 2 3 (j := N.count 2) le_rfl k
      have a2 := full_below N t q inbox halo hh hn a 2 0 (j := N.count 2) le_rfl k
      have m : ∀ v, meets N (cast t) q inbox 2 (N.count 2) false v k = meets N (cast t) q inbox 2 (N.count 2) true v k := by
        intro v; simp [meets, hn]
      have e1 : N.count 2 ≠ 0 := by omega
      simp [setAt, cast, a1, a2, m, mom, rho, e1]
  · rw [if_neg hd]
    have a1 := fun v => full_above N t q inbox halo hh hn a d v (j := j) hj k
    simp only [a1, hd, false_and, if_false]

end faces

theorem plusAt_eq (f : Fin 5 → ℂ) (g : Fin 3 → ℂ) (v : Fin 5) : plusAt f g v = f v + pressed v g := by
  unfold plusAt pressed mom
  fin_cases v <;> simp

/-- a face value stored below, copied above, read back without the halo -/
theorem mid_copied (n : Nat) (a : Nat → Bool → K → ℂ) (val : Nat → K → ℂ) (F : Nat → K → ℂ) (hF : ∀ j ≤ n, ∀ k, cast t (val j k) = F j k) :
    mid t n (setWest t n (setEast t n a val) fun j k => setEast t n a val j true k) = seen n fun j _ k => F j k := by
  funext e s k
  unfold mid seen
  by_cases he : e < n
  · rw [if_pos he, if_pos he]
    have h1 : e + 1 ≤ n := he
    have h2 : e ≤ n := by omega
    cases s
    · simp [setWest, setEast, h2, cast_cast, ← hF e h2 k]
    · simp [setWest, setEast, h1, cast_cast, ← hF (e + 1) h1 k]
  · rw [if_neg he, if_neg he]

theorem mid_sides (n : Nat) (a : Nat → Bool → K → ℂ) (lo hi : Nat → K → ℂ) (F : Nat → Bool → K → ℂ) (hlo : ∀ j ≤ n, ∀ k, cast t (lo j k) = F j false k)
    (hhi : ∀ j ≤ n, ∀ k, cast t (hi j k) = F j true k) : mid t n (setWest t n (setEast t n a lo) hi) = seen n F := by
  funext e s k
  unfold mid seen
  by_cases he : e < n
  · rw [if_pos he, if_pos he]
    have h1 : e + 1 ≤ n := he
    have h2 : e ≤ n := by omega
    cases s
    · simp [setWest, h2, cast_cast, ← hhi e h2 k]
    · simp [setWest, setEast, h1, cast_cast, ← hlo (e + 1) h1 k]
  · rw [if_neg he, if_neg he]

section
variable (q : Fin 5 → P → ℂ) (inbox halo : Fin 3 → Bool → Fin 5 → K → ℂ) (hh : ∀ d s v k, halo d s v k = cast t (inbox d s v k))
  (hn : 0 < N.count 2) (old : Option (Faces K))
include hh hn

theorem faces_f (d : Fin 3) (v : Fin 5) :
    (riemannFluxes N t (extrapolation N q) halo old).f d v = seen (N.count d) fun j _ k => flux N (cast t) q inbox d j v k := by
  have hb := full_below N t q inbox halo hh hn (allocateFaces t old).qFull d
  have ha := full_above N t q inbox halo hh hn (allocateFaces t old).qFull d
  have ub := fun j hj k => velocity_below N t q inbox halo hh hn (allocateFaces t old).qFull d (j := j) hj k
  have ua := fun j hj k => velocity_above N t q inbox halo hh hn (allocateFaces t old).qFull d (j := j) hj k
  unfold riemannFluxes rusanov
  dsimp only
  rw [allocateFaces_dt]
  refine mid_copied t (N.count d) _ _ _ ?_
  intro j hj k
  simp only [hb _ hj, ha _ hj, ub j hj, ua j hj, plusAt_eq]
  rfl

theorem faces_wadv (d : Fin 3) :
    (riemannFluxes N t (extrapolation N q) halo old).wadv d = seen (N.count d) fun j _ k => fluxW N (cast t) q inbox d j k := by
  have hb := full_below N t q inbox halo hh hn (allocateFaces t old).qFull d
  have ha := full_above N t q inbox halo hh hn (allocateFaces t old).qFull d
  have ub := fun j hj k => velocity_below N t q inbox halo hh hn (allocateFaces t old).qFull d (j := j) hj k
  have ua := fun j hj k => velocity_above N t q inbox halo hh hn (allocateFaces t old).qFull d (j := j) hj k
  unfold riemannFluxes rusanov
  dsimp only
  rw [allocateFaces_dt]
  refine mid_copied t (N.count d) _ _ _ ?_
  intro j hj k
  simp only [hb _ hj, ha _ hj, ub j hj, ua j hj]
  rfl

theorem faces_wpres (d : Fin 3) :
    (riemannFluxes N t (extrapolation N q) halo old).wpres d = seen (N.count d) (fluxWp N (cast t) q inbox d) := by
  have hb := full_below N t q inbox halo hh hn (allocateFaces t old).qFull d
  have ha := full_above N t q inbox halo hh hn (allocateFaces t old).qFull d
  unfold riemannFluxes rusanov
  dsimp only
  rw [allocateFaces_dt]
  refine mid_sides t (N.count d) _ _ _ _ ?_ ?_ <;>
  · intro j hj k
    simp only [hb _ hj, ha _ hj]
    rfl

theorem faces_p (d : Fin 3) :
    logOf N (N.count d) ((riemannFluxes N t (extrapolation N q) halo old).p d) =
      seen (N.count d) fun j a k => N.lg (pressureAt N (cast t) q inbox d j a k) := by
  have hb := full_below N t q inbox halo hh hn (allocateFaces t old).qFull d
  have ha := full_above N t q inbox halo hh hn (allocateFaces t old).qFull d
  unfold riemannFluxes
  dsimp only
  rw [allocateFaces_dt]
  funext e s k
  unfold logOf mid seen
  by_cases he : e < N.count d
  · rw [if_pos he, if_pos he, if_pos he, cast_cast]
    have h1 : e + 1 ≤ N.count d := he
    have h2 : e ≤ N.count d := by omega
    cases s
    · simp [ha 4 h2, pressureAt, rhotheta]
    · simp [hb 4 h1, pressureAt, rhotheta]
  · rw [if_neg he, if_neg he]

end

theorem pointwise_f (q : Fin 5 → P → ℂ) (b : Points P) (d : Fin 3) (v : Fin 5) : (pointwiseFluxes N q b).f d v = inside N (cast b.dt) q d v := by
  funext x
  unfold pointwiseFluxes inside plus pressed mom velocity pressureIn
  dsimp only
  fin_cases v <;> simp [cast_cast]

/-- the rows of the forcing that no statement stores -/
def Quiet (o : Obj P K) : Prop := ∀ b, o.points = some b → ∀ x, b.forcing 0 x = 0 ∧ b.forcing 4 x = 0

theorem quiet_allocate {o : Obj P K} (h : Quiet o) (junk : Fin 5 → P → ℂ) (x : P) :
    (allocatePoints junk t o.points).forcing 0 x = 0 ∧ (allocatePoints junk t o.points).forcing 4 x = 0 := by
  unfold allocatePoints
  split
  · exact ⟨rfl, rfl⟩
  · next b hb =>
    split
    · exact ⟨rfl, rfl⟩
    · exact h b hb x

theorem forcing_eq (q : Fin 5 → P → ℂ) (b : Points P) (hp : b.pressure = pressureIn N (cast b.dt) q) (h0 : ∀ x, b.forcing 0 x = 0 ∧ b.forcing 4 x = 0)
    (v : Fin 5) (x : P) : (forcingTerms N q b).forcing v x =
      if v = 1 then source N (cast b.dt) q 0 x else if v = 2 then source N (cast b.dt) q 1 x else if v = 3 then source N (cast b.dt) q 2 x else 0 := by
  unfold forcingTerms source plus velocity mom
  dsimp only
  rw [hp]
  cases N.damping <;> fin_cases v <;> simp [h0 x]

theorem forcing_rhs (q : Fin 5 → P → ℂ) (b : Points P) (hp : b.pressure = pressureIn N (cast b.dt) q) (h0 : ∀ x, b.forcing 0 x = 0 ∧ b.forcing 4 x = 0)
    (v : Fin 5) (x : P) : (forcingTerms N q b).rhs v x = if N.advectionOnly then 0 else
      cast b.dt (b.rhs v x - if v = 1 then source N (cast b.dt) q 0 x else if v = 2 then source N (cast b.dt) q 1 x
        else if v = 3 then source N (cast b.dt) q 2 x else 0) := by
  rw [← forcing_eq N q b hp h0]
  unfold forcingTerms
  dsimp only
  split <;> rfl

theorem call_quiet {o : Obj P K} (h : Quiet o) (q : Fin 5 → P → ℂ) (inbox : Fin 3 → Bool → Fin 5 → K → ℂ) (junk : Fin 5 → P → ℂ) :
    Quiet (call N o t q inbox junk).1 := by
  intro b hb x
  have := Option.some.inj hb
  subst this
  have h0 := quiet_allocate t h junk x
  constructor
  · unfold forcingTerms plus fluxDivergence pointwiseFluxes; dsimp only; cases N.damping <;> simpa using h0.1
  · unfold forcingTerms plus fluxDivergence pointwiseFluxes; dsimp only; cases N.damping <;> simpa using h0.2

theorem call_rhs {o : Obj P K} (h : Quiet o) (hn : 0 < N.count 2) (q : Fin 5 → P → ℂ) (inbox : Fin 3 → Bool → Fin 5 → K → ℂ)
    (junk : Fin 5 → P → ℂ) : (call N o t q inbox junk).2 = tendency N (cast t) q inbox := by
  have hh := endCommunication_halo t inbox o.halos
  have hdt : (pointwiseFluxes N q (allocatePoints junk t o.points)).dt = t := allocatePoints_dt t junk o.points
  have hw : ∀ d, (pointwiseFluxes N q (allocatePoints junk t o.points)).wadv d = fun y => cast t (N.vol y * velocity q d y * q rhow y) := by
    intro d; funext y; unfold pointwiseFluxes; dsimp only; rw [allocatePoints_dt]; rfl
  have hwp : ∀ d, (pointwiseFluxes N q (allocatePoints junk t o.points)).wpres d = fun y => cast t (N.vol y * N.h d 2 y) := by
    intro d; funext y; unfold pointwiseFluxes; dsimp only; rw [allocatePoints_dt]
  have hp : (pointwiseFluxes N q (allocatePoints junk t o.points)).pressure = pressureIn N (cast t) q := by
    funext y; unfold pointwiseFluxes; dsimp only; rw [allocatePoints_dt]; rfl
  have hl : (pointwiseFluxes N q (allocatePoints junk t o.points)).logp = fun y => cast t (N.lg (pressureIn N (cast t) q y)) := by
    funext y; unfold pointwiseFluxes; dsimp only; rw [allocatePoints_dt]; rfl
  have hf : ∀ d v, (pointwiseFluxes N q (allocatePoints junk t o.points)).f d v = inside N (cast t) q d v := by
    intro d v; rw [pointwise_f, allocatePoints_dt]
  have h0 := fun x => quiet_allocate t h junk x
  funext v x
  show (forcingTerms N q (fluxDivergence N (riemannFluxes N t (extrapolation N q) (endCommunication t inbox o.halos).halo o.faces)
    (pointwiseFluxes N q (allocatePoints junk t o.points)))).rhs v x = _
  have hdt2 : ∀ g : Faces K, (fluxDivergence N g (pointwiseFluxes N q (allocatePoints junk t o.points))).dt = t := fun _ => hdt
  rw [forcing_rhs N q (fluxDivergence N (riemannFluxes N t (extrapolation N q) (endCommunication t inbox o.halos).halo o.faces)
    (pointwiseFluxes N q (allocatePoints junk t o.points))) (by rw [hdt2]; exact hp) (fun x => h0 x)]
  rw [hdt2]
  unfold tendency
  by_cases ha : N.advectionOnly = true
  · rw [if_pos ha, if_pos ha]
  · rw [if_neg ha, if_neg ha]
    unfold fluxDivergence
    dsimp only
    rw [hdt]
    simp only [hf, hw, hwp, hp, hl, faces_f N t q inbox _ hh hn, faces_wadv N t q inbox _ hh hn, faces_wpres N t q inbox _ hh hn,
      faces_p N t q inbox _ hh hn]
    fin_cases v <;> simp [rhow, mom] <;> rfl

theorem after_quiet (l : List (Past P K)) : Quiet (after N l) := by
  unfold after
  have : ∀ (l : List (Past P K)) (o : Obj P K), Quiet o → Quiet (l.foldl (fun o c => (call N o c.t c.q c.inbox c.junk).1) o) := by
    intro l
    induction l with
    | nil => intro o h; exact h
    | cons c l ih => intro o h; exact ih _ (call_quiet N c.t h c.q c.inbox c.junk)
  exact this l {} (fun b hb => by cases hb)

end WxVerif.RhsObject
