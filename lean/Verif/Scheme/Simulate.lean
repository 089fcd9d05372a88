import Verif.Scheme.CheckpointProps

/-!
# Concrete executions (for examples and counterexamples)

`simulate` runs a participant on a concrete list of steps and received messages. Its results are
executions in the sense of `Exec`, so they witness that the hypotheses of the theorems are
satisfiable, and they refute claims.
-/

set_option autoImplicit false

namespace Verif

open Prog

variable {ι D : Type}

/-- Run `advance` once per list element, feeding the given messages. -/
def simulate (c : Config) (h : Hooks ι D) (P : State D → ℚ → Prop) [∀ s dt, Decidable (P s dt)] :
    List Obs → State D → List (StepIn D × List (Msg D)) → Option (List Obs × State D)
  | log, s, [] => some (log, s)
  | log, s, (i, ms) :: rest =>
    if P s i.dt then
      match (advance c h i s.fulfilAll).eval ms with
      | some (s', []) => simulate c h P (log ++ [s'.obs i]) s' rest
      | _ => none
    else none

theorem simulate_sound {c : Config} {h : Hooks ι D} {P : State D → ℚ → Prop}
    [∀ s dt, Decidable (P s dt)] {s₀ : State D} {ins : List (StepIn D × List (Msg D))}
    {log log' : List Obs} {s s' : State D} (he : Exec c h P s₀ log s)
    (hsim : simulate c h P log s ins = some (log', s')) : Exec c h P s₀ log' s' := by
  induction ins generalizing log s with
  | nil => simp only [simulate, Option.some.injEq, Prod.mk.injEq] at hsim; rwa [← hsim.1, ← hsim.2]
  | cons x rest ih =>
    obtain ⟨i, ms⟩ := x
    simp only [simulate] at hsim
    split at hsim
    · next hp =>
      split at hsim
      · next s1 heq =>
        obtain ⟨tr, hr⟩ := run_of_eval heq
        exact ih (.step he hp hr) hsim
      · cases hsim
    · cases hsim

instance (c : Config) (s : State D) (dt : ℚ) : Decidable (Limited c s dt) := by
  unfold Limited; exact inferInstance
instance (c : Config) (s : State D) (dt : ℚ) : Decidable (Sharp c s dt) := by
  unfold Sharp; exact inferInstance
instance (s : State D) (dt : ℚ) : Decidable (AnyStep s dt) := by
  unfold AnyStep; exact inferInstance
instance (c : Config) (s : State D) (dt : ℚ) : Decidable (EndsWindow c s dt) := by
  unfold EndsWindow; exact inferInstance

/-- Initialise and simulate, feeding `init` to `initialize()`. -/
def simulateFrom (c : Config) (h : Hooks ι D) (P : State D → ℚ → Prop)
    [∀ s dt, Decidable (P s dt)] (mt : Option ℚ) (w : ℚ) (d : D) (init : List (Msg D))
    (ins : List (StepIn D × List (Msg D))) : Option (List Obs × State D) :=
  match (initScheme c h (constructed c mt w d).fulfilAll).eval init with
  | some (s, []) => simulate c h P [] s ins
  | _ => none

/-- A check on the simulation result gives an execution with the checked property. -/
theorem exec_of_simulate {c : Config} {h : Hooks ι D} {P : State D → ℚ → Prop}
    [∀ s dt, Decidable (P s dt)] {mt : Option ℚ} {w : ℚ} {d : D} {init : List (Msg D)}
    {ins : List (StepIn D × List (Msg D))} {Q : List Obs × State D → Prop}
    [DecidablePred Q]
    (hq : (simulateFrom c h P mt w d init ins).any (fun r => decide (Q r)) = true) :
    ∃ s₀ log s, Started c h mt w s₀ ∧ Exec c h P s₀ log s ∧ Q (log, s) := by
  unfold simulateFrom at hq
  split at hq
  · next s₀ heq =>
    obtain ⟨tr, hr⟩ := run_of_eval heq
    rw [Option.any_eq_true] at hq
    obtain ⟨⟨log, s⟩, hs, hQ⟩ := hq
    exact ⟨s₀, log, s, ⟨d, tr, hr⟩, simulate_sound .nil hs, by simpa using hQ⟩
  · simp at hq

/-- A step writing value `v`. -/
def stp (dt : ℚ) (v : ℕ := 0) (verdict : Bool := false) : StepIn ℕ := ⟨dt, v, verdict, id⟩

/-- First participant of a parallel-implicit scheme. -/
def exPI1 : Config := { implicit := true, first := true, maxWindows := none, minIter := 1, maxIter := some 3 }
/-- Second participant of a parallel-implicit scheme. -/
def exPI2 : Config := { implicit := true, first := false, maxWindows := some 2, minIter := 2, maxIter := some 3 }
/-- First participant of a parallel-explicit scheme. -/
def exPE1 : Config := { implicit := false, first := true, maxWindows := none, minIter := 1, maxIter := none }

/-! ### The hypotheses of C01 - C13 are satisfiable -/

/-- Window size 1, max-time 5/2: a repeated iteration, a converged one with other substeps, a full
window, and the truncated last window; everything with sharp steps. -/
example : ∃ s₀ log s, Started exPI1 (Parallel.hooks exPI1) (some (5/2)) 1 s₀ ∧
    Exec exPI1 (Parallel.hooks (D := ℕ) exPI1) (Sharp exPI1) s₀ log s ∧
    (completedWindows log = 3 ∧ ¬ s.ongoing exPI1 ∧ s.time.time = 5/2 ∧
      (lastCheckpoint log).1 = 2 ∧ log.map (·.reqRead) = [false, true, false, false, false, false, false, true, false]) :=
  exec_of_simulate (Q := fun r => completedWindows r.1 = 3 ∧ ¬ r.2.ongoing exPI1 ∧
      r.2.time.time = 5/2 ∧ (lastCheckpoint r.1).1 = 2 ∧
      r.1.map (·.reqRead) = [false, true, false, false, false, false, false, true, false])
    (d := 0) (init := [])
    (ins := [(stp (1/2), []), (stp (1/2), [.conv false, .data 7]),
             (stp (1/3), []), (stp (1/3), []), (stp (1/3), [.conv true, .data 8]),
             (stp 1, [.conv true, .data 9]),
             (stp (1/4), []), (stp (1/4), [.conv false, .data 1]), (stp (1/2), [.conv true, .data 2])])
    (by decide +kernel)

/-- A measuring participant with min-iterations 2 and max-iterations 3: the positive verdict in the
first iteration is ignored, the negative one in the third iteration is overruled. -/
example : ∃ s₀ log s, Started exPI2 (Parallel.hooks exPI2) none 1 s₀ ∧
    Exec exPI2 (Parallel.hooks (D := ℕ) exPI2) (Sharp exPI2) s₀ log s ∧
    (log.map (·.complete) = [false, false, true, false, true] ∧ ¬ s.ongoing exPI2 ∧ s.windows = 3) :=
  exec_of_simulate (Q := fun r => r.1.map (·.complete) = [false, false, true, false, true] ∧
      ¬ r.2.ongoing exPI2 ∧ r.2.windows = 3)
    (d := 0) (init := [])
    (ins := [(stp 1 0 true, [.data 7]), (stp 1 0 false, [.data 7]), (stp 1 0 false, [.data 7]),
             (stp 1 0 true, [.data 7]), (stp 1 0 true, [.data 7])])
    (by decide +kernel)

example : FixedHooks (Parallel.hooks (D := ℕ) exPI1) := Parallel.fixedHooks _
example : Measures exPI2 (Parallel.hooks (D := ℕ) exPI2) := Parallel.measures rfl rfl
example : ReceivesVerdict (Parallel.hooks (D := ℕ) exPI1) false := Parallel.receivesVerdict rfl rfl

/-! ### Where the code does not do what one would expect -/

/-- **C03, disagreement.** Steps that exceed `getMaxTimeStepSize()` by less than the tolerance are
accepted. After such a step the coupling can be ongoing with a negative maximum step size: the
solver can neither step nor is it told to stop. Window size 1, max-time `1 - 1.5e-14`. -/
theorem C03_tolerated_overshoot_stuck :
    ∃ s₀ log s, Started exPE1 (Parallel.hooks exPE1) (some (1 - 3/2 * tol)) 1 s₀ ∧
      Exec exPE1 (Parallel.hooks (D := ℕ) exPE1) AnyStep s₀ log s ∧
      (s.ongoing exPE1 ∧ s.maxStep exPE1 < 0) :=
  exec_of_simulate (Q := fun r => r.2.ongoing exPE1 ∧ r.2.maxStep exPE1 < 0)
    (d := 0) (init := []) (ins := [(stp (1 - 3/5 * tol), [.data 1])]) (by decide +kernel)

/-- **C06, disagreement.** With a step that leaves a remainder below the tolerance, a checkpoint
write can be requested although the coupling is over. Window size 1, max-time `1 + 0.2e-14`. -/
theorem C06_late_write_request :
    ∃ s₀ log s, Started exPI1 (Parallel.hooks exPI1) (some (1 + 1/5 * tol)) 1 s₀ ∧
      Exec exPI1 (Parallel.hooks (D := ℕ) exPI1) (Limited exPI1) s₀ log s ∧
      (s.reqWrite = true ∧ ¬ s.ongoing exPI1) :=
  exec_of_simulate (Q := fun r => r.2.reqWrite = true ∧ ¬ r.2.ongoing exPI1)
    (d := 0) (init := []) (ins := [(stp (1 - 9/10 * tol), [.conv true, .data 1])]) (by decide +kernel)

/-- **C07, disagreement.** With a tolerated overshoot no checkpoint is requested although the
coupling goes on. Window size 1, max-time `1 + 1.5e-14`. -/
theorem C07_missing_write_request :
    ∃ s₀ log s, Started exPI1 (Parallel.hooks exPI1) (some (1 + 3/2 * tol)) 1 s₀ ∧
      Exec exPI1 (Parallel.hooks (D := ℕ) exPI1) AnyStep s₀ log s ∧
      (s.complete = true ∧ s.reqWrite = false ∧ s.ongoing exPI1) :=
  exec_of_simulate (Q := fun r => r.2.complete = true ∧ r.2.reqWrite = false ∧ r.2.ongoing exPI1)
    (d := 0) (init := []) (ins := [(stp (1 + 3/5 * tol), [.conv true, .data 1])]) (by decide +kernel)

/-- **C01, disagreement.** In a truncated last window a remainder below the tolerance is not
snapped to max-time: the participant ends at a time different from max-time. -/
theorem C01_truncated_end_not_snapped :
    ∃ s₀ log s, Started exPE1 (Parallel.hooks exPE1) (some (1/2)) 1 s₀ ∧
      Exec exPE1 (Parallel.hooks (D := ℕ) exPE1) (Limited exPE1) s₀ log s ∧
      (s.complete = true ∧ ¬ s.ongoing exPE1 ∧ s.time.time ≠ 1/2) :=
  exec_of_simulate (Q := fun r => r.2.complete = true ∧ ¬ r.2.ongoing exPE1 ∧ r.2.time.time ≠ 1/2)
    (d := 0) (init := []) (ins := [(stp (1/2 - 9/10 * tol), [.data 1])]) (by decide +kernel)

end Verif
