import Verif.Spec.MainScript
import Verif.Props.Simulation
import Mathlib.Tactic.IntervalCases

/-!
# C87: the way a run ends tells whether it succeeded
-/

namespace WxVerif.Props.MainScript

open WxVerif.MainScript WxVerif.Spec.MainScript

variable {E T : Type*}

/-! ## What `main` does once the package is imported -/

theorem main_ok {w : World E T} {a : Args} (h0 : w.imports 0 = .done) (hc : w.command = .ok a) {r : Nat} (hr : w.imports r = .done) :
    main w r = match w.body a r with
      | .done _ => .ends
      | .early x => .dies (handler a r x)
      | .late _ x => .dies (handler a r x)
      | .waits => .waits := by
  have hp : parsing w = ⟨.none, none⟩ := by simp [parsing, hc]
  have hs : Mpi.singleProcess 0 (parsing w) r = .normal .none := by
    rw [hp]
    unfold Mpi.singleProcess Mpi.bcast Mpi.transmit Mpi.innerExc Mpi.innerRet Mpi.shouldSkip
    by_cases h : r = 0 <;> simp [h]
  unfold main
  simp only [hr, h0, hs, hc]
  cases w.body a r <;> rfl

theorem main_fails {w : World E T} {a : Args} (h0 : w.imports 0 = .done) (hc : w.command = .ok a) {r : Nat} (hr : w.imports r = .done) {x : Exc E}
    (hx : FailsOn w a r x) : main w r = .dies (handler a r x) := by
  rw [main_ok h0 hc hr]
  rcases hx with hx | ⟨t, hx⟩ <;> simp only [hx]

theorem main_refused {w : World E T} {x : Exc E} (h0 : w.imports 0 = .done) (hc : w.command = .error x) {r : Nat} (hr : w.imports r = .done) :
    main w r = if r = 0 then .dies x else .dies (.sysExit 0) := by
  have hp : parsing w = ⟨.none, some x⟩ := by simp [parsing, hc]
  unfold main
  simp only [hr, h0, hp]
  unfold Mpi.singleProcess Mpi.bcast Mpi.transmit Mpi.innerExc Mpi.innerRet Mpi.shouldSkip
  by_cases h : r = 0 <;> simp [h, excOf]

/-- a run of `n` processes in which process `bad` fails with `"boom"` -/
def oneFails (n bad : Nat) (a : Args) : World String Int :=
  ⟨n, fun _ => .done, .ok a, fun _ r => if r = bad then .late none (.error "boom") else .done 7⟩

/-! ## Success -/

/-- **C87, success.** When the simulation comes to its end on every process, every process ends with status 0 and nothing is printed
as an error. -/
theorem C87_success (w : World E T) (a : Args) (hs : Starts w a) (hd : ∀ r, r < w.size → ∃ t, w.body a r = .done t) :
    LooksFine w ∧ Silent w := by
  have h : ∀ r, r < w.size → main w r = .ends := by
    intro r hr
    obtain ⟨t, ht⟩ := hd r hr
    rw [main_ok (hs.1 0 (by omega)) hs.2 (hs.1 r hr), ht]
  exact ⟨fun r hr => by rw [h r hr]; rfl, fun r hr => by rw [h r hr]; rfl⟩

example : Starts (⟨6, fun _ => .done, .ok ⟨false⟩, fun _ _ => .done 7⟩ : World String Int) ⟨false⟩ := ⟨fun _ _ => rfl, rfl⟩

/-! ## Failures of process 0 -/

/-- **C87, process 0.** An error that hits process 0 while importing, on the command line or in the simulation is shown, and the
status of process 0 is 1, with and without `--show-every-crash`: the launcher reports a failure. -/
theorem C87_root_partial (w : World E T) (hsz : 0 < w.size) (e : E)
    (h : w.imports 0 = .missing e ∨ w.imports 0 = .other (.error e) ∨ (w.imports 0 = .done ∧ w.command = .error (.error e)) ∨
      (w.imports 0 = .done ∧ ∃ a, w.command = .ok a ∧ FailsOn w a 0 (.error e))) :
    exitStatus (main w 0) = some 1 ∧ traceback (main w 0) = some (.error e) ∧ ¬ LooksFine w ∧ ¬ Silent w := by
  have hm : main w 0 = .dies (.error e) := by
    rcases h with h | h | ⟨h0, hc⟩ | ⟨h0, a, hc, hx⟩
    · simp [main, h]
    · simp [main, h]
    · rw [main_refused h0 hc h0, if_pos rfl]
    · rw [main_fails h0 hc h0 hx]
      unfold handler
      split_ifs <;> simp_all
  refine ⟨by rw [hm]; rfl, by rw [hm]; rfl, fun hf => ?_, fun hf => ?_⟩
  · have := hf 0 hsz
    rw [hm] at this
    simp [exitStatus] at this
  · have := hf 0 hsz
    rw [hm] at this
    simp [traceback] at this

example : FailsOn (oneFails 6 0 ⟨false⟩) ⟨false⟩ 0 (.error "boom") := .inr ⟨none, rfl⟩

/-- **C87, one message.** Without `--show-every-crash` no process other than 0 prints a traceback, unless importing raises something
else than a missing module or name. -/
theorem C87_one_message (w : World E T) (r : Nat) (hr : r ≠ 0) (hi : ∀ x, w.imports r ≠ .other x)
    (ha : ∀ a, w.command = .ok a → a.showEveryCrash = false) : traceback (main w r) = none := by
  cases hir : w.imports r with
  | missing e => simp [main, hir, hr, traceback]
  | other x => exact absurd hir (hi x)
  | done =>
    cases hi0 : w.imports 0 with
    | missing e => simp [main, hir, hi0, traceback]
    | other x => simp [main, hir, hi0, traceback]
    | done =>
      cases hc : w.command with
      | error x => rw [main_refused hi0 hc hir, if_neg hr]; rfl
      | ok a =>
        rw [main_ok hi0 hc hir]
        have hh : ∀ x : Exc E, traceback (.dies (handler a r x)) = none := by
          intro x
          unfold handler
          rw [if_neg (by simp [ha a hc])]
          cases x <;> simp [hr, traceback]
        cases w.body a r <;> simp only [hh] <;> rfl

example : traceback (main (oneFails 6 0 ⟨false⟩) 3) = none :=
  C87_one_message _ 3 (by decide) (by simp [oneFails]) (by simp [oneFails])

/-! ## Failures of other processes -/

/-- **C87, other processes.** An error of the simulation on a process other than 0 leaves no trace of that process when
`--show-every-crash` is not given: its status is 0 and it prints nothing. -/
theorem C87_other_silent (w : World E T) (a : Args) (hs : Starts w a) (ha : a.showEveryCrash = false) (r : Nat) (hr : r ≠ 0)
    (hrs : r < w.size) (e : E) (hx : FailsOn w a r (.error e)) : exitStatus (main w r) = some 0 ∧ traceback (main w r) = none := by
  rw [main_fails (hs.1 0 (by omega)) hs.2 (hs.1 r hrs) hx]
  simp [handler, ha, hr, exitStatus, traceback]

/-- **C87 fails: a run that fails on another process looks like a success.** With six processes, an error on process 1 alone (for
example its profile cannot be written): all processes end with status 0 and nothing is shown. -/
theorem C87_fails : ∃ (w : World String Int) (a : Args), Starts w a ∧ FailsOn w a 1 (.error "boom") ∧ 1 < w.size ∧ LooksFine w ∧ Silent w := by
  refine ⟨oneFails 6 1 ⟨false⟩, ⟨false⟩, ⟨fun _ _ => rfl, rfl⟩, .inr ⟨none, rfl⟩, by decide, ?_, ?_⟩
  · intro r hr
    have hr' : r < 6 := hr
    interval_cases r <;> rfl
  · intro r hr
    have hr' : r < 6 := hr
    interval_cases r <;> rfl

/-- **C87, `--show-every-crash`.** With this option every process on which the simulation fails shows its own error and ends with
status 1. -/
theorem C87_show_every (w : World E T) (a : Args) (hs : Starts w a) (ha : a.showEveryCrash = true) (r : Nat) (hrs : r < w.size) (e : E)
    (hx : FailsOn w a r (.error e)) :
    exitStatus (main w r) = some 1 ∧ traceback (main w r) = some (.error e) ∧ ¬ LooksFine w := by
  have hm := main_fails (hs.1 0 (by omega)) hs.2 (hs.1 r hrs) hx
  simp only [handler, ha, if_true] at hm
  refine ⟨by rw [hm]; rfl, by rw [hm]; rfl, fun h => ?_⟩
  have := h r hrs
  rw [hm] at this
  simp [exitStatus] at this

example : Starts (oneFails 6 4 ⟨true⟩) ⟨true⟩ ∧ FailsOn (oneFails 6 4 ⟨true⟩) ⟨true⟩ 4 (.error "boom") :=
  ⟨⟨fun _ _ => rfl, rfl⟩, .inr ⟨none, rfl⟩⟩

/-- **C87, everyone fails.** An error that hits all processes, as the test for values that are not numbers does, is shown by process 0 with status 1;
the others end without a word. -/
theorem C87_all_fail (w : World E T) (a : Args) (hs : Starts w a) (ha : a.showEveryCrash = false) (e : E)
    (hx : ∀ r, r < w.size → FailsOn w a r (.error e)) (r : Nat) (hr : r < w.size) :
    exitStatus (main w r) = some (if r = 0 then 1 else 0) ∧ traceback (main w r) = if r = 0 then some (.error e) else none := by
  rw [main_fails (hs.1 0 (by omega)) hs.2 (hs.1 r hr) (hx r hr)]
  by_cases h : r = 0 <;> simp [handler, ha, h, exitStatus, traceback]

/-! ## Interrupts, `SystemExit` and the command line -/

/-- **C87, interrupt.** A process whose simulation is interrupted from the keyboard ends with status 130 whatever the options, so the run does not
look like a success; the interruption is shown as an exception with `--show-every-crash` only. -/
theorem C87_interrupt (w : World E T) (a : Args) (hs : Starts w a) (r : Nat) (hr : r < w.size) (hx : FailsOn w a r .interrupt) :
    exitStatus (main w r) = some 130 ∧ traceback (main w r) = (if a.showEveryCrash then some .interrupt else none) ∧ ¬ LooksFine w := by
  have hm := main_fails (hs.1 0 (by omega)) hs.2 (hs.1 r hr) hx
  have hst : exitStatus (main w r) = some 130 := by
    rw [hm]
    unfold handler
    split_ifs <;> rfl
  refine ⟨hst, ?_, fun hf => ?_⟩
  · rw [hm]
    unfold handler
    split_ifs <;> rfl
  · have := hf r hr
    rw [hst] at this
    simp at this

/-- **C87, asking for the numbers of processes.** `SystemExit` with code 0, raised for `--allowed-proc-count` by process 0 and as the
skipping exception by the others, ends all processes with status 0 and without traceback. -/
theorem C87_exit_zero (w : World E T) (a : Args) (hs : Starts w a) (hx : ∀ r, r < w.size → FailsOn w a r (.sysExit 0)) :
    LooksFine w ∧ Silent w := by
  have h : ∀ r, r < w.size → main w r = .dies (.sysExit 0) := by
    intro r hr
    rw [main_fails (hs.1 0 (by omega)) hs.2 (hs.1 r hr) (hx r hr)]
    unfold handler
    split_ifs <;> simp_all
  exact ⟨fun r hr => by rw [h r hr]; rfl, fun r hr => by rw [h r hr]; rfl⟩

/-- **C87, command line.** When process 0 cannot make sense of the command line, or the file does not exist, no process starts a simulation
(whatever it would do), no process waits, process 0 ends with that exception and the others with status 0. -/
theorem C87_command (w : World E T) (x : Exc E) (hi : ∀ r, r < w.size → w.imports r = .done) (hc : w.command = .error x) (r : Nat) (hr : r < w.size) :
    (∀ b : Args → Nat → Tried E T, main { w with body := b } r = main w r) ∧ main w r ≠ .waits ∧
      (r = 0 → main w r = .dies x) ∧ (r ≠ 0 → exitStatus (main w r) = some 0 ∧ traceback (main w r) = none) := by
  have h := main_refused (hi 0 (by omega)) hc (hi r hr)
  refine ⟨fun b => ?_, ?_, fun h0 => by rw [h, if_pos h0], fun h0 => by rw [h, if_neg h0]; exact ⟨rfl, rfl⟩⟩
  · rw [h]
    exact main_refused (w := { w with body := b }) (hi 0 (by omega)) hc (hi r hr)
  · rw [h]; split_ifs <;> simp

example : (⟨6, fun _ => .done, .error (.error "Config file does not seem to exist"), fun _ _ => .waits⟩ : World String Int).command =
    .error (.error "Config file does not seem to exist") := rfl

/-- **C87, missing modules.** When a module is missing everywhere, process 0 shows the error with status 1 and the others end silently with
status 255. -/
theorem C87_import (w : World E T) (e : E) (hi : ∀ r, r < w.size → w.imports r = .missing e) (r : Nat) (hr : r < w.size) :
    exitStatus (main w r) = some (if r = 0 then 1 else 255) ∧ traceback (main w r) = if r = 0 then some (.error e) else none := by
  by_cases h : r = 0
  · subst h; simp [main, hi 0 hr, exitStatus, traceback]
  · simp [main, hi r hr, h, exitStatus, traceback]

/-- **C87, missing modules on one node.** When a process other than 0 misses a module it ends with status 255, without saying which. -/
theorem C87_import_other (w : World E T) (e : E) (r : Nat) (hr : r ≠ 0) (hi : w.imports r = .missing e) :
    exitStatus (main w r) = some 255 ∧ traceback (main w r) = none := by
  simp [main, hi, hr, exitStatus, traceback]

/-! ## Failures of the solvers -/

/-- **C87, not a number.** A run in which values that are not numbers appear is reported: process 0 ends with status 1 and shows the error. -/
theorem C87_nan {K I V : Type*} [Field K] [LinearOrder K] (env : Sim.Env K I V) (cfg : Sim.Config K V) (i0 : I) (fuel : Nat) (nan : E) (total : T)
    (a : Args) (hsz : 0 < env.size) (hrun : (Sim.run env cfg fuel (Sim.init env cfg i0)).2 = some .raised) :
    let w : World E T := ⟨env.size, fun _ => .done, .ok a, fun _ _ => bodyOfRun nan total (Sim.run env cfg fuel (Sim.init env cfg i0)).2⟩
    exitStatus (main w 0) = some 1 ∧ traceback (main w 0) = some (.error nan) := by
  intro w
  have := C87_root_partial w hsz nan (.inr (.inr (.inr ⟨rfl, a, rfl, .inr ⟨none, by simp [w, hrun, bodyOfRun]⟩⟩)))
  exact ⟨this.1, this.2.1⟩

/-- **C87 fails: a run stopped by its solver looks like a success.** Whenever the solver reports failure on all processes in the first
step, before the end time, and there are no values that are not numbers, the run stops there: all processes end with status 0, nothing
is shown, and the time of the run is recorded like that of a complete one. -/
theorem C87_solver_fails {K I V : Type*} [Field K] [LinearOrder K] [Zero T] (env : Sim.Env K I V) (cfg : Sim.Config K V) (i0 : I) (fuel : Nat) (nan : E) (total : T)
    (a : Args) (hfuel : 0 < fuel) (hdue : (Sim.init env cfg i0).t < cfg.tEnd)
    (hfail : ∀ i Q dt p, p < env.size → (env.integ i Q dt).2.2 p ≠ 0) (hnan : ∀ v, env.hasNaN v = false) (hsz : 0 < env.size) :
    let res := Sim.run env cfg fuel (Sim.init env cfg i0)
    let w : World E T := ⟨env.size, fun _ => .done, .ok a, fun _ _ => bodyOfRun nan total res.2⟩
    res.1.steps.length = 1 ∧ LooksFine w ∧ Silent w ∧ timeLines true (w.body a 0) = [total] := by
  obtain ⟨f, rfl⟩ : ∃ f, fuel = f + 1 := ⟨fuel - 1, by omega⟩
  have hn : ∀ Q, Sim.nanAnywhere env Q = false := by
    intro Q
    simp [Sim.nanAnywhere, hnan]
  have h1 : ∀ i Q dt, ((List.range env.size).all fun p => (env.integ i Q dt).2.2 p == 0) = false := by
    intro i Q dt
    rw [List.all_eq_false]
    exact ⟨0, List.mem_range.2 hsz, by simpa using hfail i Q dt 0 hsz⟩
  have h2 : ∀ i Q dt, ((List.range env.size).all fun p => (env.integ i Q dt).2.2 p != 0) = true := by
    intro i Q dt
    rw [List.all_eq_true]
    intro p hp
    simpa using hfail i Q dt p (List.mem_range.1 hp)
  have hst : ∀ s : Sim.State K I V, s.t < cfg.tEnd → (Sim.step env cfg s).2 = .stop ∧ (Sim.step env cfg s).1.steps.length = s.steps.length + 1 := by
    intro s hs
    unfold Sim.step
    rw [if_pos hs]
    simp only [hn, Bool.false_eq_true, if_false, h1, h2, if_true]
    simp
  intro res w
  have hres : res.2 = some .stop ∧ res.1.steps.length = 1 := by
    have hl : ∀ s : Sim.State K I V, s.t < cfg.tEnd → Sim.loop env cfg (f + 1) s = ((Sim.step env cfg s).1, some .stop) := by
      intro s hs
      have := (hst s hs).1
      unfold Sim.loop
      split
      · rename_i s' heq
        rw [heq] at this
        exact absurd this (by simp)
      · rename_i s' r hnm heq
        rw [heq] at this ⊢
        simp only at this
        rw [this]
    simp only [res, Sim.run]
    have hd : ({ Sim.init env cfg i0 with stepId := cfg.startingStep, Q := Sim.initialArray env cfg } : Sim.State K I V).t < cfg.tEnd := hdue
    rw [hl _ hd]
    exact ⟨rfl, (hst _ hd).2⟩
  have hb : ∀ r, w.body a r = .done total := fun r => by simp [w, hres.1, bodyOfRun]
  have := C87_success w a ⟨fun _ _ => rfl, rfl⟩ fun r _ => ⟨total, hb r⟩
  exact ⟨hres.2, this.1, this.2, by rw [hb]; rfl⟩

/-- six processes whose solver fails in every step -/
def failing : Sim.Env ℚ Unit ℚ :=
  ⟨fun _ Q _ => ((), Q, fun _ => 1), fun _ Q => Q, fun _ => false, fun _ Q => Q, fun Q => Q, 6⟩

example : (Sim.init failing ⟨10, 1, 0, fun _ => 0, ⟨0, 0, 0⟩⟩ ()).t < (10 : ℚ) ∧
    (∀ i Q dt p, p < failing.size → (failing.integ i Q dt).2.2 p ≠ 0) ∧ (∀ v, failing.hasNaN v = false) := by
  refine ⟨by simp [Sim.init], fun _ _ _ _ _ => by simp [failing], fun _ => rfl⟩

/-! ## The file of times -/

/-- **C87, recorded times.** With `store_total_time` a run that comes to its end adds one line, with its time; a run that fails before the
simulation exists adds none; without the option no run adds any. -/
theorem C87_times_partial [Zero T] (total : T) (x : Exc E) (b : Tried E T) :
    timeLines true (.done total : Tried E T) = [total] ∧ timeLines true (.early x : Tried E T) = [] ∧ timeLines false b = [] := by
  refine ⟨rfl, rfl, ?_⟩
  cases b with
  | late ran x => cases ran <;> simp [timeLines, finalizeLines]
  | _ => simp [timeLines, finalizeLines]

/-- **C87 fails: recorded times.** A run that fails while it is running adds a line all the same, with the time 0; one that fails
afterwards, when writing the profile, adds two lines. -/
theorem C87_times_fails [Zero T] (total : T) (x : Exc E) :
    timeLines true (.late none x : Tried E T) = [0] ∧ timeLines true (.late (some total) x : Tried E T) = [total, 0] := ⟨rfl, rfl⟩

/-- all processes of a run are interrupted -/
example : let w : World String Int := ⟨6, fun _ => .done, .ok ⟨true⟩, fun _ _ => .late none .interrupt⟩
    Starts w ⟨true⟩ ∧ FailsOn w ⟨true⟩ 4 .interrupt := ⟨⟨fun _ _ => rfl, rfl⟩, .inr ⟨none, rfl⟩⟩

end WxVerif.Props.MainScript
