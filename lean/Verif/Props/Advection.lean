/-
C52: pure-advection cases freeze the dynamics.
-/
import Verif.Model.Advection

namespace WxVerif.Props.Advection

open WxVerif.Advection

/-- **C52** (part) Whenever an evaluation of an advection-only case succeeds, the tendencies of density, the three momenta and
potential temperature are zero at every point, and those of all further variables are the computed ones; in every other case nothing is
zeroed.  Missing: that the evaluation succeeds (see `C52_fails`). -/
theorem C52_partial (caseNumber : Int) (n : Nat) (tendency rhs : Nat → Nat → ℝ) (h : evaluate caseNumber n tendency = some rhs) :
    (caseNumber < 13 → ∀ p, (∀ v < 5, rhs v p = 0) ∧ ∀ v ≥ 5, rhs v p = tendency v p) ∧ (13 ≤ caseNumber → rhs = tendency) := by
  unfold evaluate at h
  split_ifs at h
  simp only [Option.some.injEq] at h
  subst h
  constructor
  · intro hc p
    have ha : advectionOnly caseNumber = true := by simp [advectionOnly, hc]
    simp only [forcingTerms, ha, if_true]
    constructor
    · intro v hv
      rw [if_pos (by omega)]
    · intro v hv
      rw [if_neg (by omega)]
  · intro hc
    have ha : advectionOnly caseNumber = false := by simp [advectionOnly]; omega
    simp [forcingTerms, ha]

/-- the hypothesis is met by a state of five equations -/
example : ∃ rhs, evaluate 11 5 (fun v p => (v : ℝ) + p + 1) = some rhs := ⟨_, rfl⟩

/-- **C52 is violated**: every advection-only case the initialisation accepts carries tracers, and the right-hand side raises for
every state of such a case, because its interface arrays are made for five variables. -/
theorem C52_fails (caseNumber : Int) (hc : caseNumber < 13) (n : Nat) (hn : numEquations caseNumber = some n)
    (tendency : Nat → Nat → ℝ) : 5 < n ∧ evaluate caseNumber n tendency = none := by
  unfold numEquations at hn
  split_ifs at hn with h1 h2 h3
  · simp only [Option.some.injEq] at hn; subst hn; exact ⟨by omega, rfl⟩
  · simp only [Option.some.injEq] at hn; subst hn; exact ⟨by omega, rfl⟩
  · omega

/-- there are such cases -/
example : numEquations 11 = some 9 ∧ numEquations 12 = some 6 := ⟨rfl, rfl⟩

/-- **C52** All other cases have exactly the five variables the right-hand side handles, and evaluate. -/
theorem C52_other_cases (caseNumber : Int) (hc : 13 ≤ caseNumber) (n : Nat) (hn : numEquations caseNumber = some n)
    (tendency : Nat → Nat → ℝ) : evaluate caseNumber n tendency = some tendency := by
  unfold numEquations at hn
  split_ifs at hn with h1 h2 h3
  · omega
  · omega
  · simp only [Option.some.injEq] at hn
    subst hn
    have ha : advectionOnly caseNumber = false := by simp [advectionOnly]; omega
    simp [evaluate, assignable, numVar, forcingTerms, ha]

example : numEquations 31 = some 5 := rfl

end WxVerif.Props.Advection
