/-
Lemmas for C73.
-/
import Verif.Spec.Supported
import Mathlib.Tactic.IntervalCases
import Mathlib.Tactic.Ring
import Mathlib.Data.Nat.Digits.Lemmas

namespace WxVerif.Startup

open WxVerif.Spec.Supported

theorem bind_ok {α β : Type} (x : Except Exc α) (f : α → Except Exc β) (b : β) : (x >>= f) = .ok b ↔ ∃ a, x = .ok a ∧ f a = .ok b := by
  cases x <;> simp [bind, Except.bind]

theorem bind_err {α β : Type} (x : Except Exc α) (f : α → Except Exc β) (e : Exc) :
    (x >>= f) = .error e ↔ x = .error e ∨ ∃ a, x = .ok a ∧ f a = .error e := by
  cases x <;> simp [bind, Except.bind]

theorem digit_char (c : Char) (h : c.isDigit = true) : Nat.digitChar (c.toNat - '0'.toNat) = c ∧ c.toNat - '0'.toNat ≤ 9 := by
  have h1 : 48 ≤ c.toNat ∧ c.toNat ≤ 57 := by
    simp only [Char.isDigit, Bool.and_eq_true, decide_eq_true_eq, ge_iff_le] at h
    exact ⟨by simpa using UInt32.le_iff_toNat_le.mp h.1, by simpa using UInt32.le_iff_toNat_le.mp h.2⟩
  obtain ⟨h2, h3⟩ := h1
  have h0 : '0'.toNat = 48 := rfl
  rw [h0]
  refine ⟨?_, by omega⟩
  have hc : c = Char.ofNat c.toNat := by simp
  rw [hc]
  generalize c.toNat = n at h2 h3
  interval_cases n <;> rfl

theorem char_digit (d : ℕ) (h : d ≤ 9) : (Nat.digitChar d).isDigit = true ∧ (Nat.digitChar d).toNat - '0'.toNat = d := by
  interval_cases d <;> exact ⟨by decide, by decide⟩

theorem foldl_digits (l : List ℕ) : l.foldl (fun v d => 10 * v + d) 0 = Nat.ofDigits 10 l.reverse := by
  rw [Nat.ofDigits_eq_foldr, List.foldr_reverse]
  congr 1
  funext v d
  simp [add_comm]

theorem prefixed_iff (p s : String) (n : ℕ) : prefixed p s = some n ↔ Numbered p s n := by
  have hp : p.length = p.toList.length := String.length_toList.symm
  unfold prefixed
  simp only [hp]
  constructor
  · intro h
    split_ifs at h with hc
    obtain ⟨h1, h2, h3⟩ := hc
    simp only [Option.some.injEq] at h
    rw [List.all_eq_true] at h3
    refine ⟨(s.toList.drop p.toList.length).map (fun ch => ch.toNat - '0'.toNat), by simpa using h2, ?_, ?_, ?_⟩
    · intro d hd
      obtain ⟨ch, hch, rfl⟩ := List.mem_map.mp hd
      exact (digit_char ch (h3 ch hch)).2
    · conv_lhs => rw [← List.take_append_drop p.toList.length s.toList, h1]
      congr 1
      rw [List.map_map]
      symm
      conv_rhs => rw [← List.map_id (s.toList.drop p.toList.length)]
      refine List.map_congr_left fun ch hch => ?_
      exact (digit_char ch (h3 ch hch)).1
    · rw [← h, ← foldl_digits, List.foldl_map]
  · rintro ⟨ds, h1, h2, h3, rfl⟩
    rw [h3, List.take_left', List.drop_left'] <;> try rfl
    have ha : (ds.map Nat.digitChar).all Char.isDigit = true := by
      rw [List.all_eq_true]
      intro ch hch
      obtain ⟨d, hd, rfl⟩ := List.mem_map.mp hch
      exact (char_digit d (h2 d hd)).1
    rw [if_pos ⟨rfl, by simpa using h1, ha⟩, ← foldl_digits, List.foldl_map]
    congr 1
    refine List.foldl_ext _ _ _ fun v d hd => ?_
    rw [(char_digit d (h2 d hd)).2]

/-- which names give which scheme -/
def Names (name : String) : Scheme → Prop
  | .epiStiff n => Numbered "epi_stiff" name n
  | .epi n => Numbered "epi" name n
  | .srerk n => Numbered "srerk" name n
  | .euler1 => name = "euler1"
  | .tvdrk3 => name = "tvdrk3"
  | .ros2 => name = "ros2"
  | .rosexp2 => name = "rosexp2"
  | .partrosexp2 => name = "partrosexp2"
  | .imex2 => name = "imex2"
  | .backwardEuler => name = "backward_euler"
  | .bdf2 => name = "bdf2"
  | .crankNicolson => name = "crank_nicolson"
  | .strangEpiRos => name = "strang_epi2_ros2"
  | .strangRosEpi => name = "strang_ros2_epi2"

theorem epi_not_stiff (name : String) (n : ℕ) (h : Numbered "epi" name n) : prefixed "epi_stiff" name = none := by
  cases hq : prefixed "epi_stiff" name with
  | none => rfl
  | some m =>
    exfalso
    obtain ⟨ds, h1, h2, h3, -⟩ := h
    obtain ⟨es, -, -, k3, -⟩ := (prefixed_iff _ _ _).mp hq
    rw [h3] at k3
    match ds with
    | [] => exact h1 rfl
    | d :: ds' =>
      have hd := h2 d (by simp)
      have e1 : "epi".toList = ['e', 'p', 'i'] := rfl
      have e2 : "epi_stiff".toList = ['e', 'p', 'i', '_', 's', 't', 'i', 'f', 'f'] := rfl
      rw [e1, e2] at k3
      simp only [List.map_cons, List.cons_append, List.nil_append, List.cons.injEq, true_and] at k3
      have := k3.1
      interval_cases d <;> revert this <;> decide

theorem srerk_not_epi (name : String) (n : ℕ) (h : Numbered "srerk" name n) :
    prefixed "epi_stiff" name = none ∧ prefixed "epi" name = none := by
  obtain ⟨ds, -, -, h3, -⟩ := h
  have e0 : "srerk".toList = ['s', 'r', 'e', 'r', 'k'] := rfl
  have e1 : "epi".toList = ['e', 'p', 'i'] := rfl
  have e2 : "epi_stiff".toList = ['e', 'p', 'i', '_', 's', 't', 'i', 'f', 'f'] := rfl
  constructor
  · cases hq : prefixed "epi_stiff" name with
    | none => rfl
    | some m =>
      obtain ⟨es, -, -, k3, -⟩ := (prefixed_iff _ _ _).mp hq
      rw [h3, e0, e2] at k3
      simp at k3
  · cases hq : prefixed "epi" name with
    | none => rfl
    | some m =>
      obtain ⟨es, -, -, k3, -⟩ := (prefixed_iff _ _ _).mp hq
      rw [h3, e0, e1] at k3
      simp at k3

theorem parse_iff (name : String) (s : Scheme) : parseScheme name = .ok s ↔ Names name s := by
  constructor
  · intro h
    unfold parseScheme at h
    split at h
    · rename_i n hn
      cases h
      exact (prefixed_iff _ _ _).mp hn
    · split at h
      · rename_i n hn
        cases h
        exact (prefixed_iff _ _ _).mp hn
      · split at h
        · rename_i n hn
          cases h
          exact (prefixed_iff _ _ _).mp hn
        · by_cases e0 : name = "euler1"
          · rw [if_pos e0] at h; cases h; exact e0
          rw [if_neg e0] at h
          by_cases e1 : name = "tvdrk3"
          · rw [if_pos e1] at h; cases h; exact e1
          rw [if_neg e1] at h
          by_cases e2 : name = "ros2"
          · rw [if_pos e2] at h; cases h; exact e2
          rw [if_neg e2] at h
          by_cases e3 : name = "rosexp2"
          · rw [if_pos e3] at h; cases h; exact e3
          rw [if_neg e3] at h
          by_cases e4 : name = "partrosexp2"
          · rw [if_pos e4] at h; cases h; exact e4
          rw [if_neg e4] at h
          by_cases e5 : name = "imex2"
          · rw [if_pos e5] at h; cases h; exact e5
          rw [if_neg e5] at h
          by_cases e6 : name = "backward_euler"
          · rw [if_pos e6] at h; cases h; exact e6
          rw [if_neg e6] at h
          by_cases e7 : name = "bdf2"
          · rw [if_pos e7] at h; cases h; exact e7
          rw [if_neg e7] at h
          by_cases e8 : name = "crank_nicolson"
          · rw [if_pos e8] at h; cases h; exact e8
          rw [if_neg e8] at h
          by_cases e9 : name = "strang_epi2_ros2"
          · rw [if_pos e9] at h; cases h; exact e9
          rw [if_neg e9] at h
          by_cases e10 : name = "strang_ros2_epi2"
          · rw [if_pos e10] at h; cases h; exact e10
          rw [if_neg e10] at h
          cases h
  · intro h
    cases s <;> simp only [Names] at h
    case epiStiff n => simp [parseScheme, (prefixed_iff _ _ _).mpr h]
    case epi n => simp [parseScheme, epi_not_stiff _ _ h, (prefixed_iff _ _ _).mpr h]
    case srerk n => simp [parseScheme, (srerk_not_epi _ _ h).1, (srerk_not_epi _ _ h).2, (prefixed_iff _ _ _).mpr h]
    all_goals (subst h; decide +kernel)

theorem parse_err (name : String) (e : Exc) (h : parseScheme name = .error e) : e = .valueError := by
  unfold parseScheme at h
  split at h
  · cases h
  · split at h
    · cases h
    · split at h
      · cases h
      · by_cases e0 : name = "euler1"
        · rw [if_pos e0] at h; cases h
        rw [if_neg e0] at h
        by_cases e1 : name = "tvdrk3"
        · rw [if_pos e1] at h; cases h
        rw [if_neg e1] at h
        by_cases e2 : name = "ros2"
        · rw [if_pos e2] at h; cases h
        rw [if_neg e2] at h
        by_cases e3 : name = "rosexp2"
        · rw [if_pos e3] at h; cases h
        rw [if_neg e3] at h
        by_cases e4 : name = "partrosexp2"
        · rw [if_pos e4] at h; cases h
        rw [if_neg e4] at h
        by_cases e5 : name = "imex2"
        · rw [if_pos e5] at h; cases h
        rw [if_neg e5] at h
        by_cases e6 : name = "backward_euler"
        · rw [if_pos e6] at h; cases h
        rw [if_neg e6] at h
        by_cases e7 : name = "bdf2"
        · rw [if_pos e7] at h; cases h
        rw [if_neg e7] at h
        by_cases e8 : name = "crank_nicolson"
        · rw [if_pos e8] at h; cases h
        rw [if_neg e8] at h
        by_cases e9 : name = "strang_epi2_ros2"
        · rw [if_pos e9] at h; cases h
        rw [if_neg e9] at h
        by_cases e10 : name = "strang_ros2_epi2"
        · rw [if_pos e10] at h; cases h
        rw [if_neg e10] at h
        cases h
        rfl

theorem solvers_iff (x : String) : x ∈ epiSolvers ↔ x ∈ solvers := by
  simp only [epiSolvers, solvers, List.mem_cons, List.not_mem_nil, or_false]
  tauto

theorem srerk_iff (x : String) : x ∈ srerkSolvers ↔ x ∈ solvers ∧ x ≠ "exode" ∧ x ≠ "pmex_ne" := by
  constructor
  · intro h
    simp only [srerkSolvers, List.mem_cons, List.not_mem_nil, or_false] at h
    rcases h with h | h | h | h | h | h | h | h | h | h | h | h | h <;> subst h <;> decide +kernel
  · rintro ⟨h, h1, h2⟩
    simp only [solvers, List.mem_cons, List.not_mem_nil, or_false] at h
    rcases h with h | h | h | h | h | h | h | h | h | h | h | h | h | h | h
    any_goals (subst h; decide +kernel)
    · exact absurd h h1
    · exact absurd h h2

/-- creating the integrator and taking the first step -/
theorem integrator_iff (c : Setup) (g : Geom) :
    (∃ s, createIntegrator c g = .ok s ∧ firstStep c g s = .ok ()) ↔
      IntegratorRuns c.timeIntegrator c.exponentialSolver ∧ evaluateFull c g = .ok () := by
  have key : ∀ s, createIntegrator c g = .ok s ↔
      Names c.timeIntegrator s ∧ s.parts.all (hasPart g) = true ∧ s.orderOk = true := by
    intro s
    unfold createIntegrator
    rw [bind_ok]
    constructor
    · rintro ⟨t, h1, h2⟩
      have h1 := (parse_iff _ _).mp h1
      cases hp : t.parts.all (hasPart g) <;> cases ho : t.orderOk <;>
        simp [hp, ho, bind, Except.bind, pure, Except.pure, throw, throwThe, MonadExceptOf.throw] at h2
      subst h2
      exact ⟨h1, hp, ho⟩
    · rintro ⟨h1, h2, h3⟩
      exact ⟨s, (parse_iff _ _).mpr h1, by simp [h2, h3, bind, Except.bind, pure, Except.pure]⟩
  constructor
  · rintro ⟨s, h1, h2⟩
    obtain ⟨hn, hp, ho⟩ := (key s).mp h1
    unfold firstStep at h2
    rw [bind_ok] at h2
    obtain ⟨⟨⟩, h2, h3⟩ := h2
    cases s <;> simp only [Names, evaluate, callParts, chooseSolver, Scheme.orderOk, Bool.and_eq_true, decide_eq_true_eq] at hn h2 h3 ho
    case epiStiff n =>
      refine ⟨Or.inr (Or.inr (Or.inl ⟨n, hn, ho, ?_⟩)), h2⟩
      split_ifs at h3 with hh
      · exact hh.imp id (solvers_iff _).mp
    case epi n =>
      refine ⟨Or.inr (Or.inl ⟨n, hn, ho.1, ho.2, ?_⟩), h2⟩
      split_ifs at h3 with hh
      · exact (solvers_iff _).mp hh
    case srerk n =>
      refine ⟨Or.inr (Or.inr (Or.inr ⟨n, hn, ho, ?_⟩)), h2⟩
      split_ifs at h3 with hh
      · exact (srerk_iff _).mp hh
    case partrosexp2 =>
      rw [bind_ok] at h2
      obtain ⟨⟨⟩, -, h2⟩ := h2
      cases h2
    all_goals first
      | cases h2; done
      | exact ⟨Or.inl (by simp [plainIntegrators, hn]), h2⟩
  · rintro ⟨hi, he⟩
    rcases hi with h | ⟨n, h, h1, h2, h3⟩ | ⟨n, h, h1, h2⟩ | ⟨n, h, h1, h2⟩
    · simp only [plainIntegrators, List.mem_cons, List.not_mem_nil, or_false] at h
      rcases h with h | h | h | h | h | h | h
      · exact ⟨.euler1, (key _).mpr ⟨h, rfl, rfl⟩, by simp [firstStep, callParts, chooseSolver, evaluate, he, bind, Except.bind, pure, Except.pure]⟩
      · exact ⟨.tvdrk3, (key _).mpr ⟨h, rfl, rfl⟩, by simp [firstStep, callParts, chooseSolver, evaluate, he, bind, Except.bind, pure, Except.pure]⟩
      · exact ⟨.ros2, (key _).mpr ⟨h, rfl, rfl⟩, by simp [firstStep, callParts, chooseSolver, evaluate, he, bind, Except.bind, pure, Except.pure]⟩
      · exact ⟨.rosexp2, (key _).mpr ⟨h, rfl, rfl⟩, by simp [firstStep, callParts, chooseSolver, evaluate, he, bind, Except.bind, pure, Except.pure]⟩
      · exact ⟨.backwardEuler, (key _).mpr ⟨h, rfl, rfl⟩, by simp [firstStep, callParts, chooseSolver, evaluate, he, bind, Except.bind, pure, Except.pure]⟩
      · exact ⟨.bdf2, (key _).mpr ⟨h, rfl, rfl⟩, by simp [firstStep, callParts, chooseSolver, evaluate, he, bind, Except.bind, pure, Except.pure]⟩
      · exact ⟨.crankNicolson, (key _).mpr ⟨h, rfl, rfl⟩, by simp [firstStep, callParts, chooseSolver, evaluate, he, bind, Except.bind, pure, Except.pure]⟩
    · refine ⟨.epi n, (key _).mpr ⟨h, rfl, by simp [Scheme.orderOk, h1, h2]⟩, ?_⟩
      simp [firstStep, callParts, chooseSolver, evaluate, he, bind, Except.bind, pure, Except.pure, (solvers_iff _).mpr h3]
    · refine ⟨.epiStiff n, (key _).mpr ⟨h, rfl, by simp [Scheme.orderOk, h1]⟩, ?_⟩
      simp only [firstStep, callParts, chooseSolver, evaluate, he, bind, Except.bind, pure, Except.pure, if_pos (h2.imp id (solvers_iff _).mpr)]
    · refine ⟨.srerk n, (key _).mpr ⟨h, rfl, by simp [Scheme.orderOk, h1]⟩, ?_⟩
      simp only [firstStep, callParts, chooseSolver, evaluate, he, bind, Except.bind, pure, Except.pure, if_pos ((srerk_iff _).mpr h2)]

end WxVerif.Startup
