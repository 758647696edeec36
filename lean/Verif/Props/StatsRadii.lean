import Verif.Props.StatsDb

/-!
# Property C98: the spectral radii in the file of solver statistics
-/

namespace WxVerif.Props.StatsRadii

open WxVerif.StatsDb WxVerif.Props.StatsDb

theorem look_radii (show_ : ℚ → String) (p : Params) (procs : Nat) (backend : String) (m : Measured) (l : List ℚ) :
    ["exp_radius_0", "exp_radius_1", "exp_radius_2", "exp_radius_3", "exp_radius_4"].map (fun n => look n (columns show_ p procs backend m l)) =
      (List.range 5).map fun k => some (Cell.num (l.getD k 0)) := by
  simp [look, columns, List.range, List.range.loop]

/-- **C98** The columns for the spectral radii hold the radii that the preconditioner measured, one per level and zero for missing levels, if a multigrid
preconditioner with the exponential smoother was used and the options give radii; in all other rows they are zero. -/
theorem C98_radii (show_ : ℚ → String) {p : Params} (hp : Covered p) (procs : Nat) (backend : String) (m : Measured)
    {r : List (String × CType × Cell)} (h : record show_ p procs backend m = .ok r) :
    ∃ l : List ℚ, ["exp_radius_0", "exp_radius_1", "exp_radius_2", "exp_radius_3", "exp_radius_4"].map (fun n => look n r) =
        (List.range 5).map (fun k => some (Cell.num (l.getD k 0))) ∧
      ((p.preconditioner ≠ "none" ∧ p.mg_smoother = "exp" ∧ ∃ x xs, p.radii = some (x :: xs)) → ∀ l', m.precond = some (some l') → l = l') ∧
      (¬ (p.preconditioner ≠ "none" ∧ p.mg_smoother = "exp" ∧ ∃ x xs, p.radii = some (x :: xs)) → l = []) ∧
      (m.precond = none → l = []) := by
  unfold record at h
  rcases hl : radiiOf (sanitize p) m with e | l
  · rw [hl] at h; cases h
  · rw [hl] at h
    cases h
    refine ⟨l, look_radii .., ?_, ?_, ?_⟩
    · rintro ⟨h1, h2, x, xs, h3⟩ l' hm
      rcases hp with hp | ⟨hp, -⟩
      · exact absurd hp h1
      · have : (sanitize p).radii = some (x :: xs) := by simp [sanitize, h1, hp, h2, h3]
        simp only [radiiOf, this, hm] at hl
        exact (Except.ok.inj hl).symm
    · intro hn
      have : ∀ x xs, (sanitize p).radii ≠ some (x :: xs) := by
        intro x xs hx
        rcases hp with hp | ⟨hp, hsm⟩
        · simp [sanitize, hp] at hx
        · have h1 : p.preconditioner ≠ "none" := by
            rintro h1
            rw [h1] at hp
            simp at hp
          apply hn
          simp only [List.mem_cons, List.not_mem_nil, or_false] at hsm
          rcases hsm with h2 | h2 | h2 | h2
          · refine ⟨h1, h2, x, xs, ?_⟩
            simpa [sanitize, h1, hp, h2] using hx
          · simp [sanitize, h1, hp, h2] at hx
          · simp [sanitize, h1, hp, h2] at hx
          · simp [sanitize, h1, hp, h2] at hx
      unfold radiiOf at hl
      split at hl
      · rename_i h1 _; exact absurd h1 (this _ _)
      · rename_i h1 _; exact absurd h1 (this _ _)
      · exact (Except.ok.inj hl).symm
    · intro hm
      unfold radiiOf at hl
      rw [hm] at hl
      split at hl
      · rename_i h1; cases h1
      · rename_i h1; cases h1
      · exact (Except.ok.inj hl).symm

/-- multigrid with the exponential smoother on two levels -/
example (show_ : ℚ → String) : ∃ r, Covered (usual "p-mg" "exp" 1) ∧
    record show_ (usual "p-mg" "exp" 1) 6 "cpu" (step (some (some [3, 5]))) = .ok r ∧ look "exp_radius_1" r = some (.num 5) := by
  refine ⟨_, .inr (by simp [usual]), rfl, ?_⟩
  simp [look, columns]

end WxVerif.Props.StatsRadii
