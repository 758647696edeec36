import Verif.Lemmas.RhsReal
import Mathlib.Analysis.SpecialFunctions.Complex.Log
import Mathlib.Analysis.SpecialFunctions.Pow.Real

/-!
# C97: the tendency of the 3D atmosphere does not depend on earlier evaluations

The object that evaluates the tendency keeps its work arrays between calls and reallocates them when the type of the state changes.  Time
integrators call it with real states, the Jacobian products with complex ones, in any order.
-/

namespace WxVerif.Props.RhsObject
open WxVerif.Tend WxVerif.RhsObject

variable {P K : Type} (N : Numerics P K)

/-- **After any list of calls, with real or complex states, whatever memory held, the object returns the tendency of the state it is given**,
computed in arrays of the type of this state.  The grid has at least one layer. -/
theorem C97_result (hn : 0 < N.count 2) (past : List (Past P K)) (t : Dt) (q : Fin 5 → P → ℂ) (inbox : Fin 3 → Bool → Fin 5 → K → ℂ)
    (junk : Fin 5 → P → ℂ) : (call N (after N past) t q inbox junk).2 = tendency N (cast t) q inbox :=
  call_rhs N t (after_quiet N past) hn q inbox junk

/-- **Two objects with different pasts agree**; in particular an object that has been used agrees with a new one. -/
theorem C97_history_independent (hn : 0 < N.count 2) (past past' : List (Past P K)) (t : Dt) (q : Fin 5 → P → ℂ)
    (inbox : Fin 3 → Bool → Fin 5 → K → ℂ) (junk junk' : Fin 5 → P → ℂ) :
    (call N (after N past) t q inbox junk).2 = (call N (after N past') t q inbox junk').2 := by
  rw [C97_result N hn, C97_result N hn]

/-- **A complex state loses nothing**, even after calls with real states: no intermediate result is truncated. -/
theorem C97_complex (hn : 0 < N.count 2) (past : List (Past P K)) (q : Fin 5 → P → ℂ) (inbox : Fin 3 → Bool → Fin 5 → K → ℂ)
    (junk : Fin 5 → P → ℂ) : (call N (after N past) .complex q inbox junk).2 = tendency N id q inbox := by
  rw [C97_result N hn]
  rfl

/-- **A real state gives the same tendency whether it is passed as an array of reals or of complex numbers**, after any calls: with real metric
terms and operators, positive density and positive `ρθ`, nothing is truncated in the arrays of reals. -/
theorem C97_real (hn : 0 < N.count 2) (R : RealNumerics N) {q : Fin 5 → P → ℂ} {inbox : Fin 3 → Bool → Fin 5 → K → ℂ} (hq : Air q)
    (hi : ∀ d s, Air (inbox d s)) (past past' : List (Past P K)) (junk junk' : Fin 5 → P → ℂ) :
    (call N (after N past) .real q inbox junk).2 = tendency N id q inbox ∧
      (call N (after N past) .real q inbox junk).2 = (call N (after N past') .complex q inbox junk').2 := by
  rw [C97_complex N hn, C97_result N hn, tendency_real R hq hi]
  exact ⟨rfl, rfl⟩

/-- **The arrays follow the type of the last state**: after a call with a state of type `t`, every array of the object has type `t`. -/
theorem C97_types (past : List (Past P K)) (t : Dt) (q : Fin 5 → P → ℂ) (inbox : Fin 3 → Bool → Fin 5 → K → ℂ) (junk : Fin 5 → P → ℂ) :
    ∃ b h g, (call N (after N past) t q inbox junk).1 = ⟨some b, some h, some g⟩ ∧ b.dt = t ∧ h.dt = t ∧ g.dt = t := by
  refine ⟨_, _, _, rfl, allocatePoints_dt t junk _, ?_, allocateFaces_dt t _⟩
  cases (after N past).halos with
  | none => rfl
  | some b => by_cases h : b.dt = t <;> simp [endCommunication, h]

/-- Two points per element in a column of one element, with the equation of state `p = exp (1.4 log ρθ)`. -/
noncomputable def sample : Numerics Bool Unit where
  count := fun _ => 1
  extrap := fun _ f _ s _ => f s
  deriv := fun _ f _ => f true - f false
  correct := fun _ a x => a 0 x ()
  vol := fun _ => 2
  invVol := fun _ => 1 / 2
  h := fun d a _ => if d = a then 1 else 0
  volItf := fun _ _ _ _ => 2
  hItf := fun d a _ _ _ => if d = a then 1 else 0
  pressure := fun z => Complex.exp (7 / 5 * Complex.log z)
  lg := Complex.log
  ex := Complex.exp
  speed := fun h p r u => ((|u.re| + Real.sqrt (h * p / r).re : ℝ) : ℂ)
  larger := fun a b => ((max a.re b.re : ℝ) : ℂ)
  force := fun _ r u p _ => 2 * r * u 0 + p
  gravity := fun r x => 10 * r x
  damping := some fun _ r u _ => r * (u - 20)
  advectionOnly := false

theorem exp_pos_of_real {z : ℂ} (h : IsReal z) : IsPos (Complex.exp z) := by
  have : z = (z.re : ℂ) := Complex.ext rfl (by simpa [IsReal] using h)
  rw [this, ← Complex.ofReal_exp]
  exact ⟨Complex.ofReal_im _, by rw [Complex.ofReal_re]; exact Real.exp_pos _⟩

theorem log_real_of_pos {z : ℂ} (h : IsPos z) : IsReal (Complex.log z) := by
  have : z = (z.re : ℂ) := Complex.ext rfl (by simpa using h.1)
  rw [this, ← Complex.ofReal_log h.2.le]
  exact Complex.ofReal_im _

theorem sample_real : RealNumerics sample where
  extrap := fun _ _ h _ s _ => h s
  deriv := fun _ _ h _ => (h _).sub (h _)
  correct := fun _ _ h _ => h _ _ _
  vol := fun _ => by simp [sample, IsReal]
  invVol := fun _ => IsReal.half
  h := fun d a _ => by by_cases e : d = a <;> simp [sample, IsReal, e]
  volItf := fun _ _ _ _ => by simp [sample, IsReal]
  hItf := fun d a _ _ _ => by by_cases e : d = a <;> simp [sample, IsReal, e]
  hItf_pos := fun d _ _ _ => by simp [sample, IsPos]
  pressure := fun _ h => exp_pos_of_real (IsReal.mul (by unfold IsReal; norm_num) (log_real_of_pos h))
  lg := fun _ h => log_real_of_pos h
  ex := fun _ h => exp_pos_of_real h
  speed := fun _ _ _ _ _ _ _ _ => Complex.ofReal_im _
  larger := fun _ _ _ _ => Complex.ofReal_im _
  force := fun _ _ _ _ _ hr hu hp => ((IsReal.mul (by simp [IsReal]) hr).mul (hu 0)).add hp
  gravity := fun _ h x => IsReal.mul (by simp [IsReal]) (h x)
  damping := fun D hD _ _ _ _ hr hu => by
    have := Option.some.inj hD
    subst this
    exact hr.mul (hu.sub (by simp [IsReal]))

/-- The hypotheses are met: a moving state, after a complex call and a real call. -/
example (inbox' : Fin 3 → Bool → Fin 5 → Unit → ℂ) (q' : Fin 5 → Bool → ℂ) :
    let q : Fin 5 → Bool → ℂ := fun v x => if v = 0 then 1 else if v = 4 then 300 else if x then 2 else -1
    let inbox : Fin 3 → Bool → Fin 5 → Unit → ℂ := fun _ _ v _ => if v = 0 then 1 else if v = 4 then 301 else 3
    (call sample (after sample [⟨.complex, q', inbox', fun _ _ => 7⟩, ⟨.real, q', inbox', fun _ _ => 8⟩]) .real q inbox (fun _ _ => 9)).2 =
      tendency sample id q inbox := by
  intro q inbox
  have hq : Air q := by
    refine ⟨fun v x => ?_, fun x => ?_, fun x => ?_⟩
    · by_cases h0 : v = 0 <;> by_cases h4 : v = 4 <;> cases x <;> simp [q, IsReal, h0, h4]
    · simp [q, IsPos, rhotheta]
    · simp [q, IsPos, rhotheta]
  have hi : ∀ d s, Air (inbox d s) := by
    intro d s
    refine ⟨fun v x => ?_, fun x => ?_, fun x => ?_⟩
    · by_cases h0 : v = 0 <;> by_cases h4 : v = 4 <;> simp [inbox, IsReal, h0, h4]
    · simp [inbox, IsPos, rhotheta]
    · simp [inbox, IsPos, rhotheta]
  exact (C97_real sample (by decide) sample_real hq hi _ [] _ (fun _ _ => 0)).1

end WxVerif.Props.RhsObject
