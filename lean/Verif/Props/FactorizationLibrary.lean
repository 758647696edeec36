import Verif.Props.Factorization

/-!
# C100, continued: which factorization is used, and what happens when it fails
-/

namespace WxVerif.Props.Factorization

open WxVerif.Assembly WxVerif.Factorization SpecAssembly SpecFactorization

variable {R : Type} [CommRing R]

theorem factorizeAll_each {lib : Library R} {type : String} {mat : Nat → Mat R} : ∀ (size : Nat) (g : Nat → Option ((Nat → R) → Nat → R)),
    factorizeAll lib type mat size = .ok g → ∀ k, k < size → factorize lib type (mat k) = .ok (g k)
  | 0, _, _, k, hk => absurd hk (Nat.not_lt_zero k)
  | r + 1, g, hg, k, hk => by
    rw [factorizeAll] at hg
    split at hg
    · rename_i f hf
      split at hg
      · rename_i s hs
        cases hg
        by_cases hkr : k = r
        · subst hkr
          simpa using hs
        · show factorize lib type (mat k) = .ok (if k = r then s else f k)
          rw [if_neg hkr]
          exact factorizeAll_each r f hf k (by omega)
      · cases hg
    · cases hg
    · cases hg

theorem factorizeAll_raises {lib : Library R} {type : String} {mat : Nat → Mat R} : ∀ (size k : Nat) (e : String), k < size →
    factorize lib type (mat k) = .error e → ∃ e' j, j < size ∧ factorize lib type (mat j) = .error e' ∧ factorizeAll lib type mat size = .raised e'
  | 0, k, _, hk, _ => absurd hk (Nat.not_lt_zero k)
  | r + 1, k, e, hk, he => by
    by_cases hex : ∃ j, j < r ∧ ∃ e', factorize lib type (mat j) = .error e'
    · obtain ⟨j, hj, e', hj'⟩ := hex
      obtain ⟨e2, j2, h1, h2, h3⟩ := factorizeAll_raises r j e' hj hj'
      refine ⟨e2, j2, by omega, h2, ?_⟩
      rw [factorizeAll, h3]
    · have hkr : k = r := by
        by_contra hne
        exact hex ⟨k, by omega, e, he⟩
      subst hkr
      have hall : ∀ j, j < k → ∃ f, factorize lib type (mat j) = .ok f := by
        intro j hj
        cases hf : factorize lib type (mat j) with
        | ok f => exact ⟨f, rfl⟩
        | error e' => exact absurd ⟨j, hj, e', hf⟩ hex
      have hch : ∀ j, ∃ f, j < k → factorize lib type (mat j) = .ok f := fun j => by
        by_cases hj : j < k
        · obtain ⟨f, hf⟩ := hall j hj
          exact ⟨f, fun _ => hf⟩
        · exact ⟨none, fun h => absurd h hj⟩
      choose f hf using hch
      obtain ⟨g, hg, -⟩ := factorizeAll_ok (f := f) k hf
      refine ⟨e, k, by omega, he, ?_⟩
      rw [factorizeAll, hg]
      dsimp only
      rw [he]

/-- **C100.** Whatever files are there: after a step that has succeeded, `"lu"` applies the complete factorization of the matrix held by the process,
`"ilu"` the incomplete one, and with any other type each use raises `ValueError`. -/
theorem C100_library (h : Hashes) (lib : Library R) (r : Run R) (mv : Operator R) (L : List (Operator R)) (disk : Disk R) (p : Prepared R)
    (hs : (steps h lib r (mv :: L) none disk).1 = .ok (some p)) (k : Nat) (hk : k < r.size) :
    (r.config.preconditioner = "lu" → ∃ f, lib.splu (p.mat k) = .ok f ∧ ∀ v, apply (some p) k v = .ok (f v)) ∧
    (r.config.preconditioner = "ilu" → ∃ f, lib.spilu (p.mat k) = .ok f ∧ ∀ v, apply (some p) k v = .ok (f v)) ∧
    (r.config.preconditioner ≠ "lu" → r.config.preconditioner ≠ "ilu" → ∀ v, apply (some p) k v = .error "ValueError") := by
  rw [steps_cons] at hs
  have hw : ∃ mat, withMatrices lib r.config.preconditioner r.size mat = .ok (some p) := by
    unfold prepare at hs
    dsimp only at hs
    split at hs
    · cases hs
    · split at hs
      · exact ⟨_, hs⟩
      · split at hs
        · cases hs
        · exact ⟨_, hs⟩
  obtain ⟨mat, hw⟩ := hw
  unfold withMatrices at hw
  split at hw
  · rename_i g hg
    cases hw
    have hf := factorizeAll_each r.size g hg k hk
    have happ : ∀ v, apply (some ⟨mat, g⟩) k v = match g k with
      | some f => .ok (f v)
      | none => .error "ValueError" := fun _ => rfl
    refine ⟨fun ht => ?_, fun ht => ?_, fun h1 h2 v => ?_⟩
    · unfold factorize at hf
      rw [if_pos ht] at hf
      show ∃ f, lib.splu (mat k) = .ok f ∧ _
      cases hl : lib.splu (mat k) with
      | ok f =>
        rw [hl] at hf
        have hgk : g k = some f := (Except.ok.inj hf).symm
        exact ⟨f, rfl, fun v => by rw [happ, hgk]⟩
      | error e => rw [hl] at hf; cases hf
    · unfold factorize at hf
      rw [if_neg (by rw [ht]; decide +kernel), if_pos ht] at hf
      show ∃ f, lib.spilu (mat k) = .ok f ∧ _
      cases hl : lib.spilu (mat k) with
      | ok f =>
        rw [hl] at hf
        have hgk : g k = some f := (Except.ok.inj hf).symm
        exact ⟨f, rfl, fun v => by rw [happ, hgk]⟩
      | error e => rw [hl] at hf; cases hf
    · unfold factorize at hf
      rw [if_neg h1, if_neg h2] at hf
      have hgk : g k = none := (Except.ok.inj hf).symm
      rw [happ, hgk]
  · cases hw
  · cases hw

/-- **C100.** In a directory without files: if the library cannot factorize the block of some process (a singular one, say), the run stops in its first
step with an exception of the library; no process goes on with another preconditioner. -/
theorem C100_library_raises (h : Hashes) (lib : Library R) (r : Run R) (hty : r.config.preconditioner = "lu") (mv : Operator R)
    (L : List (Operator R)) (disk : Disk R) (ha : ∀ k, k < r.size → disk (r.file h k) = .absent) (k : Nat) (hk : k < r.size) (e : String)
    (he : lib.splu (genLocal mv r.size r.n k) = .error e) :
    ∃ e' j, j < r.size ∧ lib.splu (genLocal mv r.size r.n j) = .error e' ∧ (steps h lib r (mv :: L) none disk).1 = .raised e' := by
  have hfac : ∀ m, factorize lib r.config.preconditioner m = (lib.splu m).map some := by
    intro m
    unfold factorize
    rw [if_pos hty]
  obtain ⟨e', j, h1, h2, h3⟩ := factorizeAll_raises (lib := lib) (type := r.config.preconditioner) (mat := genLocal mv r.size r.n) r.size k e hk
    (by rw [hfac, he]; rfl)
  refine ⟨e', j, h1, ?_, ?_⟩
  · rw [hfac] at h2
    cases hl : lib.splu (genLocal mv r.size r.n j) with
    | ok f => rw [hl] at h2; cases h2
    | error e2 => rw [hl] at h2; cases h2; rfl
  · rw [steps_cons, prepare_absent h lib r mv ha]
    dsimp only
    unfold withMatrices
    rw [h3]

/-- a library that refuses matrices with a zero in the first entry -/
def strict : Library ℚ := ⟨fun m => if m.entry 0 0 = 0 then .error "RuntimeError" else .ok id, fun _ => .ok id⟩

/-- the hypotheses can be met: an operator whose block is zero on process 3 of six -/
example (h : Hashes) : ∃ e' j, j < 6 ∧ strict.splu (genLocal (fun Q a i => if a = 3 then 0 else Q a i) 6 2 j) = .error e' ∧
    (steps h strict ⟨sampleConfig, 6, 2, []⟩ [fun Q a i => if a = 3 then 0 else Q a i] none empty).1 = .raised e' := by
  refine C100_library_raises h strict ⟨sampleConfig, 6, 2, []⟩ rfl (fun Q a i => if a = 3 then 0 else Q a i) [] empty (fun _ _ => rfl) 3
    (by norm_num) "RuntimeError" ?_
  have h0 : (genLocal (fun Q a i => if a = 3 then (0 : ℚ) else Q a i) 6 2 3).entry 0 0 = 0 := by decide +kernel
  unfold strict
  dsimp only
  rw [if_pos h0]

end WxVerif.Props.Factorization
