import Verif.Scheme.Exec

/-!
# Properties C01 - C05: time windows and step sizes

All statements quantify over all executions of a participant of a serial or parallel scheme with
fixed window size (any `FixedHooks`), i.e. over all step sequences, received messages and
convergence verdicts.
-/

set_option autoImplicit false

namespace Verif

open Prog

variable {ι D : Type}

section helper

theorem maxStep_eq {c : Config} {mt : Option ℚ} {w : ℚ} (hw : tol < w) {log : List Obs} {s : State D}
    (hi : Inv c mt w log s) (hon : s.ongoing c) : s.maxStep c = s.time.untilWindowEnd w := by
  have htol := tol_pos
  unfold State.maxStep
  rw [if_pos hon, if_pos, hi.size]
  unfold State.hasSize
  rw [hi.size]; exact hasSize_of_pos (by linarith)

theorem hasSize_fulfil {c : Config} {mt : Option ℚ} {w : ℚ} (hw : tol < w) {log : List Obs}
    {s : State D} (hi : Inv c mt w log s) : s.fulfilAll.hasSize := by
  have htol := tol_pos
  unfold State.hasSize
  rw [fulfilAll_size, hi.size]; exact hasSize_of_pos (by linarith)

/-- Under limited steps the time stays below max-time by more than the tolerance while ongoing. -/
theorem Exec.below_end {c : Config} {h : Hooks ι D} (hh : FixedHooks h)
    {mt : Option ℚ} {w : ℚ} (hw : tol < w) (hmt : ∀ m, mt = some m → 0 < m) {s₀ : State D}
    (hs : Started c h mt w s₀)
    {log : List Obs} {s : State D} (he : Exec c h (Limited c) s₀ log s) :
    (∀ m, mt = some m → s.time.time ≤ m + tol) ∧
    (s.ongoing c → ∀ m, mt = some m → tol < m - s.time.time) := by
  have htol := tol_pos
  have key : ∀ (s : State D), s.time.maxTime = mt → (∀ m, mt = some m → s.time.time ≤ m + tol) →
      (s.ongoing c → ∀ m, mt = some m → tol < m - s.time.time) := by
    intro s hm hle hon m hmm
    by_contra hcon
    push Not at hcon
    exact hon.2 (TimeHandler.reachedEnd_iff.mpr ⟨m, by rw [hm, hmm], hcon, by linarith [hle m hmm]⟩)
  induction he with
  | nil =>
    have f := hs.facts hh
    have h1 : ∀ m, mt = some m → s₀.time.time ≤ m + tol := by
      intro m hm
      have := hmt m hm
      rw [f.time]; simp only [TimeHandler.time]; linarith
    exact ⟨h1, key _ (by rw [f.time]) h1⟩
  | @step log s s' i tr he' hp hr ih =>
    have hi := he'.inv hh hw hs
    have hi' := (Exec.step he' hp hr).inv hh hw hs
    have adv := advance_cases hh (hasSize_fulfil hw hi) hr
    have hon : s.ongoing c := adv.ongoing
    have hms := maxStep_eq hw hi hon
    unfold Limited at hp
    rw [hms] at hp
    suffices h1 : ∀ m, mt = some m → s'.time.time ≤ m + tol from ⟨h1, key _ hi'.maxTime h1⟩
    intro m hm
    have hm' : s.time.maxTime = some m := by rw [hi.maxTime, hm]
    have hte : s.time.time + i.dt ≤ m := by
      have := TimeHandler.untilWindowEnd_le_end hm' w
      linarith
    have hpe : s.time.progress + i.dt ≤ w := by
      have := TimeHandler.untilWindowEnd_le s.time w
      linarith
    have hmid : (s.time.progressBy i.dt).time = s.time.time + i.dt := by
      simp only [TimeHandler.progressBy, TimeHandler.time]; ring
    cases adv.outcome with
    | subcycle hend time =>
      rw [time]
      simp only [fulfilAll_time, hmid]
      linarith
    | completed hend hconv hok time =>
      simp only [fulfilAll_time, fulfilAll_size, hi.size] at time
      rw [time]
      unfold TimeHandler.completeTimeWindow
      split
      · next heq =>
        rw [equals_iff] at heq
        simp only [TimeHandler.progressBy, TimeHandler.time] at heq hte ⊢
        linarith [heq.1]
      · simp only [TimeHandler.progressBy, TimeHandler.time] at hte ⊢
        linarith
    | repeated hend himp hconv time =>
      simp only [fulfilAll_time] at time
      rw [time]
      simp only [TimeHandler.resetProgress, TimeHandler.time] at hte ⊢
      linarith [hi.progress, adv.dt_pos]

end helper

/-- **C01.** However the windows are subdivided (any accepted steps, any iterations), after `n`
completed windows the current window starts exactly at `n * w`; only the very last window may end
elsewhere, and then within the tolerance of max-time. -/
theorem C01_window_start_exact {c : Config} {h : Hooks ι D} (hh : FixedHooks h)
    {mt : Option ℚ} {w : ℚ} (hw : tol < w) {s₀ : State D} (hs : Started c h mt w s₀)
    {log : List Obs} {s : State D} (he : Exec c h AnyStep s₀ log s) :
    (s.ongoing c → s.time.start = completedWindows log * w) ∧
    (s.time.start = completedWindows log * w ∨
      ∃ m, mt = some m ∧ s.time.start ≤ m + tol ∧ m - tol ≤ s.time.start) := by
  have hi := he.inv hh hw hs
  refine ⟨fun hon => hi.start.resolve_right hon.2, ?_⟩
  rcases hi.start with h1 | h1
  · exact Or.inl h1
  · by_cases hp : s.time.progress = 0
    · right
      obtain ⟨m, hm, h2, h3⟩ := TimeHandler.reachedEnd_iff.mp h1
      refine ⟨m, by rw [← hi.maxTime, hm], ?_, ?_⟩ <;> simp only [TimeHandler.time, hp] at h2 h3 <;>
        linarith
    · exact absurd h1 (hi.insideOngoing hp).2

/-- **C01.** A solver that steps exactly to the window end sees every completed window end at
exactly `n * w`, or at exactly max-time if the last window is truncated. -/
theorem C01_window_end_exact {c : Config} {h : Hooks ι D} (hh : FixedHooks h)
    {mt : Option ℚ} {w : ℚ} (hw : tol < w) {s₀ : State D} (hs : Started c h mt w s₀)
    {log : List Obs} {s s' : State D} (he : Exec c h (Sharp c) s₀ log s)
    {i : StepIn D} {tr} (hp : Sharp c s i.dt) (hr : Run (advance c h i s.fulfilAll) tr s')
    (hcompl : s'.complete = true) :
    s'.time.time = completedWindows (log ++ [s'.obs i]) * w ∨ mt = some s'.time.time := by
  have htol := tol_pos
  have hi := he.inv hh hw hs
  have adv := advance_cases hh (hasSize_fulfil hw hi) hr
  have hon : s.ongoing c := adv.ongoing
  have hstart := hi.start.resolve_right hon.2
  have hms := maxStep_eq hw hi hon
  cases adv.outcome with
  | subcycle _ _ _ _ _ hc => rw [hc] at hcompl; cases hcompl
  | repeated _ _ _ _ _ _ _ hc => rw [hc] at hcompl; cases hcompl
  | completed hend hconv hok time =>
    simp only [fulfilAll_time, fulfilAll_size, hi.size] at time hend
    have hcomp : completedWindows (log ++ [s'.obs i]) = completedWindows log + 1 := by
      simp [State.obs, hcompl]
    rw [hcomp, time]
    unfold TimeHandler.completeTimeWindow
    split
    · left; simp only [TimeHandler.progressBy, TimeHandler.time, hstart]; push_cast; ring
    · next hne =>
      right
      obtain ⟨hp1, hp2⟩ := hp
      rw [hms] at hp1 hp2
      have hdt : i.dt = s.time.untilWindowEnd w := by
        apply hp2
        unfold TimeHandler.reachedEndOfWindow at hend
        rw [TimeHandler.untilWindowEnd_progressBy, equals_iff] at hend
        linarith [hend.2]
      cases hm : s.time.maxTime with
      | none =>
        rw [TimeHandler.untilWindowEnd_none hm] at hdt
        exact absurd (by
          simp only [TimeHandler.progressBy, hdt]; rw [equals_iff]; constructor <;> linarith) hne
      | some m =>
        rw [TimeHandler.untilWindowEnd_some hm] at hdt
        rcases min_choice (w - s.time.progress) (m - s.time.time) with hc | hc
        · rw [hc] at hdt
          exact absurd (by
            simp only [TimeHandler.progressBy, hdt]; rw [equals_iff]; constructor <;> linarith) hne
        · rw [hc] at hdt
          rw [← hi.maxTime, hm]
          simp only [TimeHandler.progressBy, TimeHandler.time, hdt]
          congr 1; ring

/-- **C01.** Two participants (or two runs) with the same window size that have seen the same
number of completed windows are in windows that start at the same time, whatever their substeps. -/
theorem C01_subdivision_independent {c c' : Config} {h h' : Hooks ι D} (hh : FixedHooks h)
    (hh' : FixedHooks h') {mt mt' : Option ℚ} {w : ℚ} (hw : tol < w) {s₀ s₀' : State D}
    (hs : Started c h mt w s₀) (hs' : Started c' h' mt' w s₀')
    {log log' : List Obs} {s s' : State D} (he : Exec c h AnyStep s₀ log s)
    (he' : Exec c' h' AnyStep s₀' log' s') (hn : completedWindows log = completedWindows log')
    (ho : s.ongoing c) (ho' : s'.ongoing c') : s.time.start = s'.time.start := by
  rw [(C01_window_start_exact hh hw hs he).1 ho, (C01_window_start_exact hh' hw hs' he').1 ho', hn]

/-- **C02.** An accepted step is larger than the tolerance and overshoots neither the window end nor
max-time by more than the tolerance (relative to the current window start and time). -/
theorem C02_no_overshoot {c : Config} {h : Hooks ι D} (hh : FixedHooks h)
    {mt : Option ℚ} {w : ℚ} (hw : tol < w) {s₀ : State D} (hs : Started c h mt w s₀)
    {log : List Obs} {s s' : State D} (he : Exec c h AnyStep s₀ log s)
    {i : StepIn D} {tr} (hr : Run (advance c h i s.fulfilAll) tr s') :
    0 < i.dt ∧ i.dt ≤ s.maxStep c + tol ∧
    s.time.time + i.dt ≤ s.time.start + w + tol ∧
    (∀ m, mt = some m → s.time.time + i.dt ≤ m + tol) ∧
    s'.time.time ≤ s.time.start + w + tol := by
  have htol := tol_pos
  have hi := he.inv hh hw hs
  have adv := advance_cases hh (hasSize_fulfil hw hi) hr
  have hon : s.ongoing c := adv.ongoing
  have hms := maxStep_eq hw hi hon
  have hle := adv.dt_le
  rw [fulfilAll_maxStep] at hle
  have hle2 := hle
  rw [hms] at hle2
  have h1 : s.time.time + i.dt ≤ s.time.start + w + tol := by
    have := TimeHandler.untilWindowEnd_le s.time w
    simp only [TimeHandler.time]; linarith
  refine ⟨by linarith [adv.dt_pos], hle, h1, fun m hm => ?_, ?_⟩
  · have := TimeHandler.untilWindowEnd_le_end (t := s.time) (m := m) (by rw [hi.maxTime, hm]) w
    linarith
  · have hmid : (s.time.progressBy i.dt).time = s.time.time + i.dt := by
      simp only [TimeHandler.progressBy, TimeHandler.time]; ring
    cases adv.outcome with
    | subcycle hend time => rw [time, fulfilAll_time, hmid]; exact h1
    | completed hend hconv hok time =>
      simp only [fulfilAll_time, fulfilAll_size, hi.size] at time
      rw [time]
      unfold TimeHandler.completeTimeWindow
      split
      · simp only [TimeHandler.progressBy, TimeHandler.time]; linarith
      · simp only [TimeHandler.progressBy, TimeHandler.time] at h1 ⊢; linarith
    | repeated hend himp hconv time =>
      rw [time]; simp only [fulfilAll_time, TimeHandler.resetProgress, TimeHandler.time]
      linarith

/-- **C02.** `advance` with a non-positive step, a step below the tolerance, or a step exceeding
`getMaxTimeStepSize()` by more than the tolerance is an error, in every state of every scheme. -/
theorem C02_rejected {c : Config} {h : Hooks ι D} {i : StepIn D} {s : State D}
    (hbad : i.dt ≤ tol ∨ i.dt > s.maxStep c + tol) : advance c h i s = .fail .check := by
  unfold advance addComputedTime Prog.ensure
  by_cases h1 : s.ongoing c
  · by_cases h2 : equals i.dt 0
    · simp [h1, h2]
    · by_cases h3 : i.dt > 0
      · by_cases h4 : s.hasSize ∨ i.dt < dblMax
        · have h5 : ¬ greaterEquals (s.maxStep c) i.dt := by
            rcases hbad with hb | hb
            · have htol := tol_pos
              exact absurd (equals_iff.mpr ⟨by linarith, by linarith⟩) h2
            · unfold greaterEquals; push Not; linarith
          simp [h1, h2, h3, h4, h5]
        · simp [h1, h2, h3, h4]
      · simp [h1, h2, h3]
  · simp [h1]

/-- **C03.** If the solver respects `getMaxTimeStepSize()`, then as long as the coupling is ongoing
the maximum step size is larger than the tolerance, and stepping by it is not rejected for its size. -/
theorem C03_progress_possible {c : Config} {h : Hooks ι D} (hh : FixedHooks h)
    {mt : Option ℚ} {w : ℚ} (hw : tol < w) (hmt : ∀ m, mt = some m → 0 < m) {s₀ : State D}
    (hs : Started c h mt w s₀) {log : List Obs} {s : State D}
    (he : Exec c h (Limited c) s₀ log s) (hon : s.ongoing c) : tol < s.maxStep c := by
  have hi := he.inv hh hw hs
  rw [maxStep_eq hw hi hon, TimeHandler.lt_untilWindowEnd]
  rcases hi.inside with h1 | h1
  · exact ⟨by rw [h1]; linarith, fun m hm =>
      (he.below_end hh hw hmt hs).2 hon m (by rw [← hi.maxTime, hm])⟩
  · exact TimeHandler.lt_untilWindowEnd.mp h1

/-- **C04.** The coupling is over exactly when max-time-windows windows have been completed or
max-time has been reached (up to the tolerance); this never happens inside a window. -/
theorem C04_termination {c : Config} {h : Hooks ι D} (hh : FixedHooks h) {P : State D → ℚ → Prop}
    {mt : Option ℚ} {w : ℚ} (hw : tol < w)
    (hN : ∀ N, c.maxWindows = some N → 1 ≤ N) {s₀ : State D}
    (hs : Started c h mt w s₀) {log : List Obs} {s : State D} (he : Exec c h P s₀ log s) :
    (¬ s.ongoing c ↔ c.maxWindows = some (completedWindows log) ∨
      ∃ m, mt = some m ∧ |m - s.time.time| ≤ tol) ∧
    (¬ s.ongoing c → s.time.progress = 0) ∧
    (∀ N, c.maxWindows = some N → completedWindows log ≤ N) := by
  have hi := he.inv hh hw hs
  refine ⟨?_, fun hn => ?_, fun N hNN => hi.maxW N hNN (hN N hNN)⟩
  · unfold State.ongoing
    rw [not_and_or, not_not, TimeHandler.reachedEnd_iff, hi.maxTime]
    refine or_congr ?_ ?_
    · cases hc : c.maxWindows with
      | none => simp
      | some N =>
        have := hi.maxW N hc (hN N hc)
        simp only [Option.some.injEq, hi.windows]
        omega
    · refine exists_congr fun m => and_congr_right fun _ => ?_
      rw [abs_le]
      exact and_comm
  · by_contra hp
    exact hn (hi.insideOngoing hp)

/-- **C04.** Once the coupling is over, `advance` fails. -/
theorem C04_no_step_after_end {c : Config} {h : Hooks ι D} {i : StepIn D} {s : State D}
    (hn : ¬ s.ongoing c) : advance c h i s = .fail .check := by
  unfold advance addComputedTime Prog.ensure
  simp [hn]

/-- **C05.** One `advance(dt)` either moves the time forward by `dt` (up to the tolerance when a
window completes, exactly otherwise), or, exactly if reading a checkpoint is required, moves it back
to the start of the current window. -/
theorem C05_monotone_or_restore {c : Config} {h : Hooks ι D} (hh : FixedHooks h)
    {P : State D → ℚ → Prop} {mt : Option ℚ} {w : ℚ} (hw : tol < w) {s₀ : State D}
    (hs : Started c h mt w s₀) {log : List Obs} {s s' : State D} (he : Exec c h P s₀ log s)
    {i : StepIn D} {tr} (hr : Run (advance c h i s.fulfilAll) tr s') :
    (s'.reqRead = false → |s'.time.time - (s.time.time + i.dt)| ≤ tol ∧
        (s'.complete = false → s'.time.time = s.time.time + i.dt) ∧ s.time.time < s'.time.time) ∧
    (s'.reqRead = true → s'.time.time = s.time.start ∧ s'.complete = false) := by
  have htol := tol_pos
  have hi := he.inv hh hw hs
  have adv := advance_cases hh (hasSize_fulfil hw hi) hr
  have hmid : (s.time.progressBy i.dt).time = s.time.time + i.dt := by
    simp only [TimeHandler.progressBy, TimeHandler.time]; ring
  cases adv.outcome with
  | subcycle hend time _ _ _ hc hrd =>
    simp only [hrd, time, hc, fulfilAll_time, hmid]
    refine ⟨fun _ => ⟨by simpa using htol.le, fun _ => trivial, by linarith [adv.dt_pos]⟩, fun h => by cases h⟩
  | completed hend hconv hok time _ _ _ hc hrd =>
    simp only [fulfilAll_time, fulfilAll_size, hi.size] at time
    simp only [hrd, hc]
    refine ⟨fun _ => ⟨?_, (fun h => by cases h), ?_⟩, fun h => by cases h⟩
    · rw [time]
      unfold TimeHandler.completeTimeWindow
      split
      · next heq =>
        rw [equals_iff] at heq
        rw [abs_le]
        simp only [TimeHandler.progressBy, TimeHandler.time] at heq ⊢
        constructor <;> linarith [heq.1, heq.2]
      · simp only [TimeHandler.progressBy, TimeHandler.time]
        rw [abs_le]; constructor <;> linarith
    · rw [time]
      unfold TimeHandler.completeTimeWindow
      split
      · rcases hi.inside with h1 | h1
        · simp only [TimeHandler.time, TimeHandler.progressBy, h1]; linarith
        · have := TimeHandler.untilWindowEnd_le s.time w
          simp only [TimeHandler.time, TimeHandler.progressBy]; linarith
      · simp only [TimeHandler.time, TimeHandler.progressBy]; linarith [adv.dt_pos]
  | repeated hend himp hconv time _ _ _ hc hrd =>
    simp only [hrd, time, hc, fulfilAll_time]
    refine ⟨(fun h => by cases h), fun _ => ⟨?_, trivial⟩⟩
    simp [TimeHandler.resetProgress, TimeHandler.time]

end Verif
