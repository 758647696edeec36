import Verif.Model.RhsTimes
import Mathlib.Algebra.BigOperators.Group.List.Basic
import Mathlib.Data.List.GetD
import Mathlib.Tactic.Ring
import Mathlib.Tactic.NormNum

/-!
# Property C51: the columns of the timing rows
-/

namespace WxVerif.Props.RhsTimes

open WxVerif.RhsTimes

/-- which stage the name of a column speaks of; the total has none -/
def meaning : Column → Option Stage
  | .extrapolation => some .solutionExtrapolation
  | .startComm => some .startCommunication
  | .pointwiseFlux => some .pointwiseFluxes
  | .fluxDiv1 => some .fluxDivergencePartial
  | .endComm => some .endCommunication
  | .riemann => some .riemannFluxes
  | .fluxDiv2 => some .fluxDivergence
  | .forcing => some .forcingTerms
  | .total => none

variable {K : Type} [CommRing K]

/-- the time a column stands for: that of its stage, or of the whole evaluation -/
def worth (d : Stage → K) (c : Column) : K :=
  match meaning c with
  | some s => d s
  | none => d .solutionExtrapolation + d .startCommunication + d .pointwiseFluxes + d .fluxDivergencePartial + d .endCommunication +
      d .riemannFluxes + d .fluxDivergence + d .forcingTerms

theorem stamps_head (d : Stage → K) (t : K) (ss : List Stage) : (stamps d t ss).head? = some t := by
  cases ss <;> rfl

theorem stamps_last (d : Stage → K) : ∀ (ss : List Stage) (t : K), (stamps d t ss).getLast? = some (t + (ss.map d).sum)
  | [], t => by simp [stamps]
  | s :: ss, t => by
    rw [stamps, List.getLast?_cons, stamps_last d ss]
    simp [add_assoc]

theorem intervals_stamps (d : Stage → K) : ∀ (ss : List Stage) (t : K), intervals (stamps d t ss) = ss.map d
  | [], t => rfl
  | [s], t => by simp [stamps, intervals]
  | s :: s' :: ss, t => by
    have := intervals_stamps d (s' :: ss) (t + d s)
    rw [stamps] at this ⊢
    rw [stamps, intervals, this]
    simp

/-- **C51 (times), all stages.** For any list of stages the times retrieved after an evaluation are the times of the stages, in order,
followed by their sum, whatever the time at which the evaluation began. -/
theorem C51_elapsed (d : Stage → K) (t : K) (ss : List Stage) : elapsed (stamps d t ss) = some (ss.map d ++ [(ss.map d).sum]) := by
  rw [elapsed, stamps_head, stamps_last, intervals_stamps]
  simp

/-- **C51 (columns).** In the row stored for an evaluation every column has the time of the stage it is named after, and the last one the
time of the whole evaluation. -/
theorem C51_columns (d : Stage → K) (t : K) :
    ∃ r, (elapsed (stamps d t order)).bind row = some r ∧ r.map Prod.fst = columns ∧ ∀ c v, (c, v) ∈ r → v = worth d c := by
  rw [C51_elapsed, Option.bind_some, row, if_pos (by simp [order])]
  refine ⟨_, rfl, by simp [columns, order], ?_⟩
  intro c v h
  simp only [columns, order, List.map_cons, List.map_nil, List.cons_append, List.nil_append, List.zip_cons_cons, List.zip_nil_left,
    List.mem_cons, Prod.mk.injEq, List.not_mem_nil, or_false, List.sum_cons, List.sum_nil] at h
  rcases h with ⟨rfl, rfl⟩ | ⟨rfl, rfl⟩ | ⟨rfl, rfl⟩ | ⟨rfl, rfl⟩ | ⟨rfl, rfl⟩ | ⟨rfl, rfl⟩ | ⟨rfl, rfl⟩ | ⟨rfl, rfl⟩ | ⟨rfl, rfl⟩ <;>
    first
    | rfl
    | (simp only [worth, meaning]; ring)

/-- **C51 (the printed averages).** After any number of evaluations, at least one, the number printed with a label is the average, in
milliseconds, of the times of the stage with that name. -/
theorem C51_printed {K : Type} [Field K] (ds : List (Stage → K)) (t : (Stage → K) → K) (hd : ds ≠ []) :
    ∃ r, printed (ds.filterMap fun d => elapsed (stamps d (t d) order)) = some r ∧ r.map Prod.fst = columns ∧
      ∀ c v, (c, v) ∈ r → v = (ds.map fun d => worth d c).sum / ds.length * 1000 := by
  have e : (ds.filterMap fun d => elapsed (stamps d (t d) order)) = ds.map fun d => order.map d ++ [(order.map d).sum] := by
    induction ds with
    | nil => rfl
    | cons d ds ih =>
      rw [List.filterMap_cons, C51_elapsed]
      by_cases h : ds = []
      · subst h; rfl
      · simp [ih h]
  rw [e, printed, if_pos ⟨by simpa using hd, by intro x hx; obtain ⟨d, -, rfl⟩ := List.mem_map.1 hx; simp [order]⟩]
  refine ⟨_, rfl, List.map_fst_zip (by simp [columns]), ?_⟩
  intro c v h
  have h9 : List.range 9 = [0, 1, 2, 3, 4, 5, 6, 7, 8] := rfl
  simp only [h9, columns, List.map_cons, List.map_nil, List.zip_cons_cons, List.zip_nil_left, List.mem_cons, Prod.mk.injEq,
    List.not_mem_nil, or_false, List.map_map, List.length_map] at h
  have key : ∀ (i : Nat) (c : Column), (∀ d : Stage → K, (order.map d ++ [(order.map d).sum]).getD i 0 = worth d c) →
      ((ds.map ((fun t : List K => t.getD i 0) ∘ fun d => order.map d ++ [(order.map d).sum])).sum / (ds.length : K) * 1000 =
        (ds.map fun d => worth d c).sum / (ds.length : K) * 1000) := by
    intro i c hc
    congr 3
    exact List.map_congr_left fun d _ => hc d
  rcases h with ⟨rfl, rfl⟩ | ⟨rfl, rfl⟩ | ⟨rfl, rfl⟩ | ⟨rfl, rfl⟩ | ⟨rfl, rfl⟩ | ⟨rfl, rfl⟩ | ⟨rfl, rfl⟩ | ⟨rfl, rfl⟩ | ⟨rfl, rfl⟩ <;>
    refine key _ _ fun d => ?_
  all_goals first
    | rfl
    | (simp [order, worth, meaning]; ring)

/-- an evaluation in which the stages take 1, …, 8 units -/
example : elapsed (stamps (fun s => match s with
    | .solutionExtrapolation => (1 : Int) | .startCommunication => 2 | .pointwiseFluxes => 3 | .fluxDivergencePartial => 4
    | .endCommunication => 5 | .riemannFluxes => 6 | .fluxDivergence => 7 | .forcingTerms => 8) 100 order) =
    some [1, 2, 3, 4, 5, 6, 7, 8, 36] := by decide

end WxVerif.Props.RhsTimes
