import Verif.Model.Epi
import Verif.Spec.Multistep
import Mathlib.Algebra.BigOperators.Group.Finset.Basic
import Mathlib.Algebra.BigOperators.Intervals
import Mathlib.Tactic.Ring
import Mathlib.Tactic.Linarith
import Mathlib.Tactic.NormNum
import Mathlib.Tactic.FieldSimp

/-!
# Lemmas about the EPI model
-/

namespace WxVerif.Lemmas.Epi

open WxVerif.Epi WxVerif.Multistep

variable {K : Type*} {V : Type*}

section vec
variable [Field K] [AddCommGroup V] [Module K V]

theorem addAt_range (L : Nat) (g : Nat → V) (k : Nat) (x : V) (hk : k < L) :
    addAt ((List.range L).map g) k x =
      some ((List.range L).map fun j => if j = k then g j + x else g j) := by
  unfold addAt
  have : ((List.range L).map g)[k]? = some (g k) := by simp [hk]
  rw [this]
  simp only [Option.some.injEq]
  apply List.ext_getElem
  · simp
  · intro i h1 h2
    simp only [List.getElem_map, List.getElem_range, List.getElem_set]
    by_cases h : k = i
    · subst h; simp
    · simp [h, Ne.symm h]

theorem addColumn_range (r : V) (L : Nat) (as : List K) : ∀ (g : Nat → V) (k : Nat), k + as.length ≤ L →
    addColumn r ((List.range L).map g) k as =
      some ((List.range L).map fun j => g j + (if k ≤ j then as.getD (j - k) 0 else 0) • r) := by
  induction as with
  | nil =>
    intro g k _
    simp only [addColumn, List.getD_nil, ite_self, zero_smul, add_zero]
  | cons a as ih =>
    intro g k h
    simp only [List.length_cons] at h
    rw [addColumn, addAt_range L g k (a • r) (by omega), Option.bind_some, ih _ _ (by omega)]
    congr 1
    apply List.map_congr_left
    intro j _
    by_cases hj : j = k
    · subst hj
      simp
    · by_cases hle : k ≤ j
      · have h1 : k + 1 ≤ j := by omega
        have h2 : j - k = (j - (k + 1)) + 1 := by omega
        simp only [hj, ↓reduceIte, h1, hle, h2, List.getD_cons_succ]
      · have h1 : ¬ k + 1 ≤ j := by omega
        simp [hj, hle, h1]

theorem column_spec (n : Nat) (A : List (List K)) (h : ∀ row ∈ A, row.length = n) (i : Nat) (hi : i < n) :
    ∃ col, column A i = some col ∧ col.length = A.length ∧ ∀ k, col.getD k 0 = (A.getD k []).getD i 0 := by
  induction A with
  | nil => exact ⟨[], rfl, rfl, fun k => by simp⟩
  | cons row rows ih =>
    obtain ⟨col, h1, h2, h3⟩ := ih (fun r hr => h r (List.mem_cons_of_mem _ hr))
    have hl : row.length = n := h row List.mem_cons_self
    have hi' : i < row.length := by omega
    refine ⟨row[i] :: col, ?_, by simp [h2], ?_⟩
    · rw [column, List.getElem?_eq_getElem hi', Option.bind_some, h1, Option.map_some]
    · intro k
      cases k with
      | zero => simp [hi']
      | succ k => simpa using h3 k

/-- the vector rows the exponential solver must receive -/
theorem fill_spec (cfg : Cfg K) (ext : Ext K V) (st : St K V) (Q f : V) (q : Nat → V) (L : Nat)
    (hA : ∀ row ∈ cfg.A, row.length = cfg.nPrev)
    (hL : 0 < cfg.nPrev → cfg.first + cfg.A.length ≤ L)
    (hq : st.prevQ = (List.range cfg.nPrev).map q)
    (hr : st.prevRhs = (List.range cfg.nPrev).map (fun i => ext.rhs (q i))) :
    ∀ (m i : Nat) (g : Nat → V), i + m = cfg.nPrev →
      fill cfg ext st Q f i m ((List.range L).map g) =
        some ((List.range L).map fun row => g row + ∑ t ∈ Finset.range m,
          (if cfg.first ≤ row then (cfg.A.getD (row - cfg.first) []).getD (i + t) 0 else 0) •
            ((ext.rhs (q (i + t)) - f) - ext.jac Q (q (i + t) - Q))) := by
  intro m
  induction m with
  | zero => intro i g _; simp [fill]
  | succ m ih =>
    intro i g h
    have hi : i < cfg.nPrev := by omega
    obtain ⟨col, hc1, hc2, hc3⟩ := column_spec cfg.nPrev cfg.A hA i hi
    have e1 : st.prevQ[i]? = some (q i) := by rw [hq]; simp [hi]
    have e2 : st.prevRhs[i]? = some (ext.rhs (q i)) := by rw [hr]; simp [hi]
    rw [fill, e1, Option.bind_some, e2, Option.bind_some]
    dsimp only
    rw [hc1, Option.bind_some, addColumn_range _ L col g cfg.first (by rw [hc2]; exact hL (by omega)),
      Option.bind_some, ih (i + 1) _ (by omega)]
    congr 1
    apply List.map_congr_left
    intro row _
    rw [Finset.sum_range_succ']
    simp only [Nat.add_zero, hc3]
    rw [add_assoc]
    congr 1
    rw [add_comm]
    congr 1
    apply Finset.sum_congr rfl
    intro t _
    rw [show i + 1 + t = i + (t + 1) by omega]

theorem vec0_range (cfg : Cfg K) (f : V) :
    vec0 cfg f = (List.range (cfg.maxPhi + 1)).map fun row => if row = 1 then f else 0 := by
  unfold vec0
  apply List.ext_getElem
  · simp
  · intro i h1 h2
    simp only [List.getElem_set, List.getElem_replicate, List.getElem_map, List.getElem_range]
    by_cases h : i = 1
    · subst h; simp
    · simp [h, Ne.symm h]

end vec

section run
variable [Field K] [LinearOrder K] [AddCommGroup V] [Module K V]

/-- number of calls since the last restart, after `n` calls -/
noncomputable def since (dts : Nat → K) : Nat → Nat
  | 0 => 0
  | n + 1 => open Classical in if Restart dts n then 1 else since dts n + 1

/-- number of calls whose history is usable at the start of call `n` -/
noncomputable def usable (dts : Nat → K) (n : Nat) : Nat :=
  open Classical in if Restart dts n then 0 else since dts n

theorem since_succ (dts : Nat → K) (n : Nat) : since dts (n + 1) = usable dts n + 1 := by
  unfold usable
  rw [since]
  split <;> rfl

theorem usable_le (dts : Nat → K) (n : Nat) : usable dts n ≤ n := by
  induction n with
  | zero =>
    unfold usable
    have : Restart dts 0 := Or.inl rfl
    simp [this]
  | succ n ih =>
    unfold usable
    split
    · omega
    · rw [since_succ]; omega

theorem le_usable_iff (dts : Nat → K) (n m : Nat) : m ≤ usable dts n ↔ Uninterrupted dts n m := by
  induction n generalizing m with
  | zero =>
    have : Restart dts 0 := Or.inl rfl
    have e : usable dts 0 = 0 := by unfold usable; simp [this]
    rw [e]
    unfold Uninterrupted
    constructor
    · intro h
      refine ⟨h, fun j h1 h2 => by omega⟩
    · intro h; exact h.1
  | succ n ih =>
    by_cases hr : Restart dts (n + 1)
    · have e : usable dts (n + 1) = 0 := by unfold usable; simp [hr]
      rw [e]
      constructor
      · intro h
        have : m = 0 := by omega
        subst this
        exact ⟨by omega, fun j h1 h2 => by omega⟩
      · intro h
        by_contra hm
        exact h.2 (n + 1) (by omega) (by omega) hr
    · have e : usable dts (n + 1) = usable dts n + 1 := by
        unfold usable
        rw [if_neg hr, since_succ]
        rfl
      rw [e]
      cases m with
      | zero =>
        exact ⟨fun _ => ⟨by omega, fun j h1 h2 => by omega⟩, fun _ => by omega⟩
      | succ m =>
        have := ih m
        constructor
        · intro h
          obtain ⟨a, b⟩ := this.1 (by omega)
          refine ⟨by omega, fun j h1 h2 => ?_⟩
          by_cases hj : j = n + 1
          · subst hj; exact hr
          · exact b j (by omega) (by omega)
        · intro h
          have : m ≤ usable dts n := this.2 ⟨by have := h.1; omega, fun j h1 h2 => h.2 j (by omega) (by omega)⟩
          omega

end run

end WxVerif.Lemmas.Epi
