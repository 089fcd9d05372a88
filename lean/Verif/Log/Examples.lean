import Verif.Log.Props

/-!
# C121: concrete runs
-/

set_option autoImplicit false

namespace Verif.Log

open Prog

variable {ι D R : Type}

instance (ms : List Measure.Ctx) : Decidable (Measure.strictFailure ms) := by
  unfold Measure.strictFailure; exact inferInstance
instance (ms : List Measure.Ctx) : Decidable (Measure.verdict ms) := by
  unfold Measure.verdict; exact inferInstance

/-- `Fits` as a computation. -/
def fits (c : Config) (g : LogCfg) (i : StepIn D) (l : LogIn R) : Bool :=
  !measures c || (decide (l.meas.length = g.measures.length) &&
    decide (i.verdict = true ↔ l.meas.map (·.2) ≠ [] ∧ Measure.verdict (l.meas.map (·.2))))

theorem fits_sound {c : Config} {g : LogCfg} {i : StepIn D} {l : LogIn R} (h : fits c g i l = true) :
    Fits c g i l := by
  unfold fits at h
  rw [Bool.or_eq_true] at h
  constructor
  · intro hm
    rw [hm] at h
    simp only [Bool.not_true, Bool.false_eq_true, false_or, Bool.and_eq_true, decide_eq_true_eq] at h
    exact h.1
  · intro hm
    rw [hm] at h
    simp only [Bool.not_true, Bool.false_eq_true, false_or, Bool.and_eq_true, decide_eq_true_eq] at h
    simpa using h.2

/-- Run `advance` once per list element, feeding the given messages. -/
def simulateL (c : Config) (h : Hooks ι D) (g : LogCfg) :
    List (Obs × LogIn R) → State D → Files R → List (StepIn D × LogIn R × List (Msg D)) →
    Option (List (Obs × LogIn R) × State D × Files R)
  | log, s, f, [] => some (log, s, f)
  | log, s, f, (i, l, ms) :: rest =>
    if fits c g i l = true then
      match (advanceL c h g i l s.fulfilAll f).eval ms with
      | some ((s', f'), []) => simulateL c h g (log ++ [(s'.obs i, l)]) s' f' rest
      | _ => none
    else none

theorem simulateL_sound {c : Config} {h : Hooks ι D} {g : LogCfg} {s₀ : State D}
    {ins : List (StepIn D × LogIn R × List (Msg D))} {log log' : List (Obs × LogIn R)} {s s' : State D}
    {f f' : Files R} (he : LExec c h g AnyStep s₀ log s f)
    (hsim : simulateL c h g log s f ins = some (log', s', f')) : LExec c h g AnyStep s₀ log' s' f' := by
  induction ins generalizing log s f with
  | nil =>
    simp only [simulateL, Option.some.injEq, Prod.mk.injEq] at hsim
    rwa [← hsim.1, ← hsim.2.1, ← hsim.2.2]
  | cons x rest ih =>
    obtain ⟨i, l, ms⟩ := x
    simp only [simulateL] at hsim
    split at hsim
    · next hf =>
      split at hsim
      · next s1 f1 heq =>
        obtain ⟨tr, hr⟩ := run_of_eval heq
        exact ih (.step he trivial (fits_sound hf) hr) hsim
      · cases hsim
    · cases hsim

/-- Initialise and simulate. -/
def simulateFromL (c : Config) (h : Hooks ι D) (g : LogCfg) (mt : Option ℚ) (w : ℚ) (d : D)
    (init : List (Msg D)) (ins : List (StepIn D × LogIn R × List (Msg D))) :
    Option (List (Obs × LogIn R) × State D × Files R) :=
  match (initScheme c h (constructed c mt w d).fulfilAll).eval init with
  | some (s, []) => simulateL c h g [] s (openFiles c g) ins
  | _ => none

theorem lexec_of_simulate {c : Config} {h : Hooks ι D} {g : LogCfg} {mt : Option ℚ} {w : ℚ} {d : D}
    {init : List (Msg D)} {ins : List (StepIn D × LogIn R × List (Msg D))}
    {Q : List (Obs × LogIn R) × State D × Files R → Prop} [DecidablePred Q]
    (hq : (simulateFromL c h g mt w d init ins).any (fun r => decide (Q r)) = true) :
    ∃ s₀ log s f, Started c h mt w s₀ ∧ LExec c h g AnyStep s₀ log s f ∧ Q (log, s, f) := by
  unfold simulateFromL at hq
  split at hq
  · next s₀ heq =>
    obtain ⟨tr, hr⟩ := run_of_eval heq
    rw [Option.any_eq_true] at hq
    obtain ⟨⟨log, s, f⟩, hs, hQ⟩ := hq
    exact ⟨s₀, log, s, f, ⟨d, tr, hr⟩, simulateL_sound .nil hs, by simpa using hQ⟩
  · simp at hq

/-- One relative convergence measure and a quasi-Newton acceleration. -/
def exLog : LogCfg := { measures := ["ResRel(Solid:Force)"], qn := true, inFirst := false }

/-- Input of a step with residual `r`, converged or not. -/
def lin (r : ℚ) (conv : Bool) (cols : ℤ := 0) (remesh : Bool := false) : LogIn ℚ :=
  ⟨remesh, [(r, ⟨false, false, conv⟩)], (cols, 0, 0)⟩

/-- The window converges in the second iteration, the next one in the third, which is the last one that is
allowed: the logs of the second participant (`min-iterations` 2, `max-iterations` 3). -/
example : ∃ (s₀ : State ℕ) (log : List (Obs × LogIn ℚ)) (s : State ℕ) (f : Files ℚ),
    Started exPI2 (Parallel.hooks exPI2) none 1 s₀ ∧
    LExec exPI2 (Parallel.hooks (D := ℕ) exPI2) exLog AnyStep s₀ log s f ∧
    (f.iter.rows = [[.int 1, .int 2, .int 2, .int 1, .int 4, .int 0, .int 0],
        [.int 2, .int 5, .int 3, .int 0, .int 7, .int 0, .int 0]] ∧
     f.conv.rows = [[.int 1, .int 1, .double (1/2)], [.int 1, .int 2, .double (1/1000)],
        [.int 2, .int 1, .double (1/3)], [.int 2, .int 2, .double (1/4)], [.int 2, .int 3, .double (1/5)]] ∧
     (log.map fun x => x.2.remesh) = [false, false, false, false, false, false, false]) :=
  lexec_of_simulate (Q := fun r =>
      r.2.2.iter.rows = [[.int 1, .int 2, .int 2, .int 1, .int 4, .int 0, .int 0],
        [.int 2, .int 5, .int 3, .int 0, .int 7, .int 0, .int 0]] ∧
      r.2.2.conv.rows = [[.int 1, .int 1, .double (1/2)], [.int 1, .int 2, .double (1/1000)],
        [.int 2, .int 1, .double (1/3)], [.int 2, .int 2, .double (1/4)], [.int 2, .int 3, .double (1/5)]] ∧
      (r.1.map fun x => x.2.remesh) = [false, false, false, false, false, false, false])
    (d := 0) (init := [])
    (ins := [(stp 1 0 false, lin (1/2) false 3, [.data 7]), (stp 1 0 true, lin (1/1000) true 4, [.data 7]),
      (stp (1/2) 0 false, lin 9 false 9, []), (stp (1/2) 0 false, lin (1/3) false 5, [.data 7]),
      (stp (1/4) 0 false, lin 9 false 9, []),
      (stp (3/4) 0 false, lin (1/4) false 6, [.data 7]), (stp 1 0 false, lin (1/5) false 7, [.data 7])])
    (by decide +kernel)

/-- **C121, disagreement.** A window whose convergence measures are satisfied in the last allowed iteration is
logged as not converged. -/
theorem C121_flag_at_max : ∃ (s₀ : State ℕ) (log : List (Obs × LogIn ℚ)) (s : State ℕ) (f : Files ℚ),
    Started exPI2 (Parallel.hooks exPI2) none 1 s₀ ∧
    LExec exPI2 (Parallel.hooks (D := ℕ) exPI2) exLog AnyStep s₀ log s f ∧
    ((∃ x, log.getLast? = some x ∧ x.1.complete = true ∧ x.2.meas ≠ [] ∧
        Measure.verdict (x.2.meas.map (·.2))) ∧
      ∃ row, f.iter.rows = [row] ∧ row[3]? = some (.int 0)) := by
  obtain ⟨s₀, log, s, f, h1, h2, h3⟩ := lexec_of_simulate
    (c := exPI2) (h := Parallel.hooks (D := ℕ) exPI2) (g := exLog) (mt := none) (w := 1)
    (Q := fun r => (r.1.map fun x => (x.1.complete, x.2.meas)) =
        [(false, [((1/2 : ℚ), ⟨false, false, false⟩)]), (false, [(1/3, ⟨false, false, false⟩)]),
          (true, [(1/1000, ⟨false, false, true⟩)])] ∧
      r.2.2.iter.rows = [[.int 1, .int 3, .int 3, .int 0, .int 0, .int 0, .int 0]])
    (d := 0) (init := [])
    (ins := [(stp 1 0 false, lin (1/2) false, [.data 7]), (stp 1 0 false, lin (1/3) false, [.data 7]),
      (stp 1 0 true, lin (1/1000) true, [.data 7])])
    (by decide +kernel)
  refine ⟨s₀, log, s, f, h1, h2, ?_, _, h3.2, rfl⟩
  have hl := congrArg List.getLast? h3.1
  rw [List.getLast?_map] at hl
  simp only [List.getLast?_cons_cons, List.getLast?_singleton] at hl
  cases hx : log.getLast? with
  | none => rw [hx] at hl; simp at hl
  | some x =>
    rw [hx] at hl
    simp only [Option.map_some, Option.some.injEq, Prod.mk.injEq] at hl
    refine ⟨x, rfl, hl.1, ?_, ?_⟩
    · rw [hl.2]; simp
    · rw [hl.2]; decide

/-- **C121, disagreement.** Remeshing in the second window deletes the row of the first window and the rows of
all its iterations. -/
theorem C121_remeshing_deletes : ∃ (s₀ : State ℕ) (log : List (Obs × LogIn ℚ)) (s : State ℕ) (f : Files ℚ),
    Started exPI2 (Parallel.hooks exPI2) none 1 s₀ ∧
    LExec exPI2 (Parallel.hooks (D := ℕ) exPI2) exLog AnyStep s₀ log s f ∧
    (completedWindows (seen log) = 2 ∧ iterationsDone (seen log) = 5 ∧
      f.iter.rows = [[.int 2, .int 5, .int 3, .int 0, .int 0, .int 0, .int 0]] ∧
      f.conv.rows = [[.int 2, .int 2, .double (1/4)], [.int 2, .int 3, .double (1/5)]]) :=
  lexec_of_simulate (Q := fun r =>
      completedWindows (seen r.1) = 2 ∧ iterationsDone (seen r.1) = 5 ∧
      r.2.2.iter.rows = [[.int 2, .int 5, .int 3, .int 0, .int 0, .int 0, .int 0]] ∧
      r.2.2.conv.rows = [[.int 2, .int 2, .double (1/4)], [.int 2, .int 3, .double (1/5)]])
    (d := 0) (init := [])
    (ins := [(stp 1 0 false, lin (1/2) false, [.data 7]), (stp 1 0 true, lin (1/1000) true, [.data 7]),
      (stp 1 0 false, lin (1/3) false, [.data 7]),
      (stp 1 0 false, lin (1/4) false 0 true, [.data 7]), (stp 1 0 false, lin (1/5) false, [.data 7])])
    (by decide +kernel)

/-- A first participant writes the iterations log only, without quasi-Newton columns; its windows are
completed by the messages of the second one. -/
example : ∃ (s₀ : State ℕ) (log : List (Obs × LogIn ℚ)) (s : State ℕ) (f : Files ℚ),
    Started exPI1 (Parallel.hooks exPI1) none 1 s₀ ∧
    LExec exPI1 (Parallel.hooks (D := ℕ) exPI1) exLog AnyStep s₀ log s f ∧
    (f.iter.rows = [[.int 1, .int 2, .int 2, .int 1], [.int 2, .int 3, .int 1, .int 1]] ∧
      f.conv.rows = []) :=
  lexec_of_simulate (Q := fun r =>
      r.2.2.iter.rows = [[.int 1, .int 2, .int 2, .int 1], [.int 2, .int 3, .int 1, .int 1]] ∧
      r.2.2.conv.rows = [])
    (d := 0) (init := [])
    (ins := [(stp 1, lin 0 false, [.conv false, .data 7]), (stp 1, lin 0 false, [.conv true, .data 7]),
      (stp 1, lin 0 false, [.conv true, .data 7])])
    (by decide +kernel)

/-- A serial scheme measures in the first exchange; hypotheses of the theorems. -/
example : FixedHooks (Serial.hooks (D := ℕ) exPI2) := Serial.fixedHooks rfl rfl
example : Measures exPI2 (Serial.hooks (D := ℕ) exPI2) := Serial.measures rfl rfl
example : ∀ N, exPI2.maxIter = some N → 1 ≤ N ∧ exPI2.minIter ≤ N := by
  intro N hN
  have : N = 3 := by simpa [exPI2] using hN.symm
  subst this
  decide
example : ¬ StrictStop exPI2 2 [((0 : ℚ), (⟨false, true, false⟩ : Measure.Ctx))] := by
  rintro ⟨h, -⟩; exact h (by simp [Measure.rawMax, exPI2])
example : StrictStop exPI2 3 [((0 : ℚ), (⟨false, true, false⟩ : Measure.Ctx))] :=
  ⟨by simp [Measure.rawMax, exPI2], _, List.mem_singleton.mpr rfl, rfl, rfl⟩
example : iterationsOf [⟨1, 1, false, true, false⟩, ⟨1, 1, true, false, true⟩, ⟨1, 2, true, false, true⟩] = [2, 1] := by
  decide +kernel

end Verif.Log
