import Verif.Model.Mpi

/-!
# Properties C08, C09 of the MPI execution contexts
-/

universe u v

namespace WxVerif.Props.Mpi

open WxVerif.Mpi

variable {V : Type u} {E : Type v}

/-- **C08.** For every communicator, root and body (whose return value is not the library's private failure
marker): the body runs on the root only; if it finishes, every process leaves the block normally holding the root's
return value; if it raises, every process leaves the block with an exception, the root with its own. -/
theorem C08_single_process_all_or_nothing (size root : Nat) (_hroot : root < size) (b : Body V E)
    (hb : b.ret ≠ .failure) :
    (∀ r, r < size → (executes root r = true ↔ r = root)) ∧
    (b.exc = none → ∀ r, r < size → singleProcess root b r = .normal b.ret) ∧
    (∀ e, b.exc = some e →
      singleProcess root b root = .raised (.user e) ∧
      ∀ r, r < size → r ≠ root → singleProcess root b r = .raised .skip) := by
  refine ⟨?_, ?_, ?_⟩
  · intro r _; simp [executes, shouldSkip]
  · intro he r _
    have ht : transmit root b root = b.ret := by
      simp [transmit, innerExc, innerRet, shouldSkip, he]
    unfold singleProcess bcast
    rw [ht]
    by_cases hr : r = root
    · subst hr
      simp [innerExc, shouldSkip, he]
    · have : shouldSkip root r = true := by simp [shouldSkip, hr]
      unfold innerExc
      rw [this]
      cases hret : b.ret with
      | failure => exact absurd hret hb
      | none => simp
      | other v => simp
  · intro e he
    have ht : transmit root b root = .failure := by
      simp [transmit, innerExc, shouldSkip, he]
    constructor
    · unfold singleProcess bcast
      rw [ht]
      simp [innerExc, shouldSkip, he]
    · intro r _ hr
      unfold singleProcess bcast
      rw [ht]
      simp [innerExc, shouldSkip, hr]

/-- **C08, `do_once`.** All processes get the action's value, or all get an exception. -/
theorem C08_do_once (action : Except E (Val V)) (h : action ≠ .ok .failure) (size : Nat) (hs : 0 < size) :
    (∃ v, action = .ok v ∧ ∀ r, r < size → doOnce action r = .normal v) ∨
    (∃ e, action = .error e ∧ ∀ r, r < size → ∃ x, doOnce action r = .raised x) := by
  cases action with
  | ok v =>
    left
    refine ⟨v, rfl, fun r hr => ?_⟩
    exact (C08_single_process_all_or_nothing size 0 hs (⟨v, none⟩ : Body V E) (fun e => h (by rw [← e]))).2.1 rfl r hr
  | error e =>
    right
    refine ⟨e, rfl, fun r hr => ?_⟩
    have := (C08_single_process_all_or_nothing size 0 hs (⟨.none, some e⟩ : Body V E) (by simp)).2.2 e rfl
    by_cases h0 : r = 0
    · subst h0; exact ⟨_, this.1⟩
    · exact ⟨_, this.2 r hr h0⟩

example : (⟨.other 7, none⟩ : Body Nat String).ret ≠ .failure := by simp

example : singleProcess 2 (⟨.none, some "boom"⟩ : Body Nat String) 0 = .raised .skip := by decide
example : singleProcess 2 (⟨.other 7, none⟩ : Body Nat String) 0 = .normal (.other 7) := by decide

/-- **C09, negation.** The all-process guard does not raise on every process: with two processes of which one fails,
the process whose body finished leaves the block normally. -/
theorem C09_finished_process_not_stopped :
    ∃ bodies : List (BodyEnd String), bodies.length = 2 ∧
      multipleProcesses bodies 0 = some (.user "boom") ∧ multipleProcesses bodies 1 = none :=
  ⟨[.failed "boom", .finished], rfl, by decide, by decide⟩

theorem sum_numErrors_eq_zero (bodies : List (BodyEnd E)) :
    (bodies.map numErrors).sum = 0 ↔ ∀ e, BodyEnd.failed e ∉ bodies := by
  induction bodies with
  | nil => simp
  | cons b bs ih =>
    rw [List.map_cons, List.sum_cons, Nat.add_eq_zero_iff, ih]
    cases b with
    | skipped => simp [numErrors]
    | finished => simp [numErrors]
    | failed e =>
      constructor
      · rintro ⟨h, _⟩; simp [numErrors] at h
      · intro h; exact absurd List.mem_cons_self (h e)

/-- **C09, part.** No process raises when no body failed; when some body failed, every failing process re-raises its
own exception and every idle process raises.  Missing for the full C09: processes whose body finished do not
raise (see the negation; line 119 can only swallow an exception, not create one). -/
theorem C09_multiple_processes_partial (bodies : List (BodyEnd E)) (r : Nat) :
    ((∀ e, BodyEnd.failed e ∉ bodies) → multipleProcesses bodies r = none) ∧
    (∀ e, BodyEnd.failed e ∈ bodies →
      (∀ e', bodies[r]? = some (.failed e') → multipleProcesses bodies r = some (.user e')) ∧
      (bodies[r]? = some .skipped → multipleProcesses bodies r = some .skip) ∧
      (bodies[r]? = some .finished → multipleProcesses bodies r = none)) := by
  constructor
  · intro h
    have := (sum_numErrors_eq_zero bodies).2 h
    unfold multipleProcesses
    simp only [this]
    split <;> rfl
  · intro e he
    have hne : (bodies.map numErrors).sum ≠ 0 := fun h => (sum_numErrors_eq_zero bodies).1 h e he
    have hsw : ((bodies.map numErrors).sum == 0) = false := by simpa using hne
    refine ⟨?_, ?_, ?_⟩
    · intro e' h; unfold multipleProcesses; simp only [h, hsw]; rfl
    · intro h; unfold multipleProcesses; simp only [h, hsw]; rfl
    · intro h; unfold multipleProcesses; simp only [h]

example : multipleProcesses [.finished, .failed "boom", .skipped] 2 = some .skip := by decide

end WxVerif.Props.Mpi
