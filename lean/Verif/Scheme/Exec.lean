import Verif.Scheme.Local
import Mathlib.Tactic.Ring
import Mathlib.Algebra.Order.Group.MinMax

/-!
# Executions of one participant and their invariants

`Exec` is the set of all histories a solver can see: any number of `advance` calls with any
accepted step sizes, any received messages and any convergence verdicts. The solver answers all
checkpoint requests between two calls (`fulfilAll`); what happens if it does not is property C08.
-/

set_option autoImplicit false

namespace Verif

open Prog

variable {ι D : Type}

/-- What the solver can observe after one `advance(dt)`. -/
structure Obs where
  dt : ℚ
  /-- current time of the participant -/
  time : ℚ
  /-- `isTimeWindowComplete()` -/
  complete : Bool
  /-- `requiresReadingCheckpoint()` -/
  reqRead : Bool
  /-- `requiresWritingCheckpoint()` -/
  reqWrite : Bool

def State.obs (i : StepIn D) (s : State D) : Obs :=
  ⟨i.dt, s.time.time, s.complete, s.reqRead, s.reqWrite⟩

/-- Number of windows the solver has seen completed. -/
def completedWindows (log : List Obs) : ℕ := (log.filter (·.complete)).length

@[simp] theorem completedWindows_nil : completedWindows [] = 0 := rfl

@[simp] theorem completedWindows_snoc (log : List Obs) (o : Obs) :
    completedWindows (log ++ [o]) = completedWindows log + if o.complete then 1 else 0 := by
  unfold completedWindows
  rw [List.filter_append, List.length_append]
  cases h : o.complete <;> simp [h]

/-- `Started c h mt w s`: `s` is a state right after a successful `initialize()` of a participant
with max-time `mt` and time-window-size `w` whose solver answered `requiresInitialData()`. -/
def Started (c : Config) (h : Hooks ι D) (mt : Option ℚ) (w : ℚ) (s : State D) : Prop :=
  ∃ d tr, Run (initScheme c h (constructed c mt w d).fulfilAll) tr s

/-- Executions from `s₀` in which every step satisfies `P state dt`. -/
inductive Exec (c : Config) (h : Hooks ι D) (P : State D → ℚ → Prop) (s₀ : State D) :
    List Obs → State D → Prop where
  | nil : Exec c h P s₀ [] s₀
  | step {log : List Obs} {s s' : State D} {i : StepIn D} {tr : List (Ev ι (Msg D))} :
      Exec c h P s₀ log s → P s i.dt → Run (advance c h i s.fulfilAll) tr s' →
      Exec c h P s₀ (log ++ [s'.obs i]) s'

/-- Any step that `advance` accepts. -/
def AnyStep (_ : State D) (_ : ℚ) : Prop := True

/-- The solver limits its step by `getMaxTimeStepSize()`. -/
def Limited (c : Config) (s : State D) (dt : ℚ) : Prop := dt ≤ s.maxStep c

/-- The solver limits its step and does not leave a remainder below the tolerance: if less than
the tolerance would remain in the window it steps exactly to the end. -/
def Sharp (c : Config) (s : State D) (dt : ℚ) : Prop :=
  dt ≤ s.maxStep c ∧ (s.maxStep c - dt ≤ tol → dt = s.maxStep c)

theorem Exec.mono {c : Config} {h : Hooks ι D} {P Q : State D → ℚ → Prop}
    (hPQ : ∀ s dt, P s dt → Q s dt) {s₀ : State D} {log s} (he : Exec c h P s₀ log s) :
    Exec c h Q s₀ log s := by
  induction he with
  | nil => exact .nil
  | step _ hp hr ih => exact .step ih (hPQ _ _ hp) hr

theorem Sharp.limited {c : Config} {s : State D} {dt : ℚ} (h : Sharp c s dt) : Limited c s dt := h.1

/-! ### Arithmetic of the time handler -/

namespace TimeHandler

theorem reachedEnd_iff {t : TimeHandler} :
    t.reachedEnd ↔ ∃ m, t.maxTime = some m ∧ m - t.time ≤ tol ∧ -tol ≤ m - t.time := by
  unfold reachedEnd untilTime time
  cases h : t.maxTime with
  | none => simp
  | some m =>
    simp only [equals_iff, Option.some.injEq, exists_eq_left']
    constructor <;> rintro ⟨h1, h2⟩ <;> constructor <;> linarith

theorem untilWindowEnd_none {t : TimeHandler} (h : t.maxTime = none) (w : ℚ) :
    t.untilWindowEnd w = w - t.progress := by
  simp [untilWindowEnd, h, untilProgress]

theorem untilWindowEnd_some {t : TimeHandler} {m : ℚ} (h : t.maxTime = some m) (w : ℚ) :
    t.untilWindowEnd w = min (w - t.progress) (m - t.time) := by
  simp [untilWindowEnd, h, untilProgress, untilEnd, untilTime, time]

theorem untilWindowEnd_le (t : TimeHandler) (w : ℚ) : t.untilWindowEnd w ≤ w - t.progress := by
  cases h : t.maxTime with
  | none => rw [untilWindowEnd_none h]
  | some m => rw [untilWindowEnd_some h]; exact min_le_left _ _

theorem untilWindowEnd_le_end {t : TimeHandler} {m : ℚ} (h : t.maxTime = some m) (w : ℚ) :
    t.untilWindowEnd w ≤ m - t.time := by
  rw [untilWindowEnd_some h]; exact min_le_right _ _

theorem untilWindowEnd_progressBy (t : TimeHandler) (w dt : ℚ) :
    (t.progressBy dt).untilWindowEnd w = t.untilWindowEnd w - dt := by
  cases h : t.maxTime with
  | none =>
    rw [untilWindowEnd_none h, untilWindowEnd_none (by simpa [progressBy] using h)]
    simp [progressBy]; ring
  | some m =>
    rw [untilWindowEnd_some h, untilWindowEnd_some (m := m) (by simpa [progressBy] using h)]
    rw [← min_sub_sub_right]
    simp only [progressBy, time]
    congr 1 <;> ring

theorem lt_untilWindowEnd {t : TimeHandler} {w x : ℚ} :
    x < t.untilWindowEnd w ↔ x < w - t.progress ∧ ∀ m, t.maxTime = some m → x < m - t.time := by
  cases h : t.maxTime with
  | none => rw [untilWindowEnd_none h]; simp
  | some m => rw [untilWindowEnd_some h]; simp

/-- the window end is reached through the window size or through max-time -/
theorem reachedEndOfWindow_cases {t : TimeHandler} {w : ℚ} (h : t.reachedEndOfWindow w) :
    (w - t.progress ≤ tol) ∨ ∃ m, t.maxTime = some m ∧ m - t.time ≤ tol := by
  unfold reachedEndOfWindow at h
  rw [equals_iff] at h
  cases hm : t.maxTime with
  | none => rw [untilWindowEnd_none hm] at h; left; linarith [h.2]
  | some m =>
    rw [untilWindowEnd_some hm] at h
    rcases min_choice (w - t.progress) (m - t.time) with hc | hc <;> rw [hc] at h
    · left; linarith [h.2]
    · right; exact ⟨m, rfl, by linarith [h.2]⟩

end TimeHandler

/-! ### Facts about the start state -/

theorem hasSize_of_pos {w : ℚ} (hw : 0 < w) : ¬ equals w undefinedSize := by
  rw [equals_iff]
  rintro ⟨_, h2⟩
  have : tol < 1 := by norm_num [tol]
  unfold undefinedSize at h2
  linarith

structure StartFacts (c : Config) (mt : Option ℚ) (w : ℚ) (s : State D) : Prop where
  time : s.time = ⟨mt, 0, 0⟩
  windows : s.windows = 1
  iters : s.iters = 1
  total : s.total = 1
  complete : s.complete = false
  reqRead : s.reqRead = false
  reqWrite : s.reqWrite = c.implicit
  size : s.size = w
  nextSize : s.nextSize = w

theorem Started.facts {c : Config} {h : Hooks ι D} (hh : FixedHooks h) {mt : Option ℚ} {w : ℚ}
    {s : State D} (hs : Started c h mt w s) : StartFacts c mt w s := by
  obtain ⟨d, tr, hr⟩ := hs
  obtain ⟨hc, hn, hz⟩ := hh.initial _ _ _ hr
  have hz' : s.size = w := by
    rcases hz with hz | hz <;> simpa [constructed, State.fulfilAll] using hz
  refine ⟨?_, hc.windows, ?_, ?_, ?_, ?_, ?_, hz', ?_⟩
  · rw [hc.time]; simp [constructed, State.fulfilAll, TimeHandler.resetTo]
  · rw [hc.iters]; simp [constructed, State.fulfilAll]
  · rw [hc.total]; simp [constructed, State.fulfilAll]
  · rw [hc.complete]; simp [constructed, State.fulfilAll]
  · rw [hc.reqRead]; simp [constructed, State.fulfilAll]
  · rw [hc.reqWrite]; simp [constructed, State.fulfilAll]
  · rw [hn]; simp [constructed, State.fulfilAll]

/-! ### Invariants -/

@[simp] theorem fulfilAll_time (s : State D) : s.fulfilAll.time = s.time := rfl
@[simp] theorem fulfilAll_windows (s : State D) : s.fulfilAll.windows = s.windows := rfl
@[simp] theorem fulfilAll_size (s : State D) : s.fulfilAll.size = s.size := rfl
@[simp] theorem fulfilAll_nextSize (s : State D) : s.fulfilAll.nextSize = s.nextSize := rfl
@[simp] theorem fulfilAll_iters (s : State D) : s.fulfilAll.iters = s.iters := rfl
@[simp] theorem fulfilAll_total (s : State D) : s.fulfilAll.total = s.total := rfl
@[simp] theorem fulfilAll_maxStep (c : Config) (s : State D) : s.fulfilAll.maxStep c = s.maxStep c := rfl
@[simp] theorem fulfilAll_ongoing (c : Config) (s : State D) : s.fulfilAll.ongoing c ↔ s.ongoing c := Iff.rfl

/-- Invariant that holds for all accepted steps. -/
structure Inv (c : Config) (mt : Option ℚ) (w : ℚ) (log : List Obs) (s : State D) : Prop where
  maxTime : s.time.maxTime = mt
  size : s.size = w
  nextSize : s.nextSize = w
  progress : 0 ≤ s.time.progress
  inside : s.time.progress = 0 ∨ tol < s.time.untilWindowEnd w
  windows : s.windows = 1 + completedWindows log
  start : s.time.start = completedWindows log * w ∨ s.time.reachedEnd
  maxW : ∀ N, c.maxWindows = some N → 1 ≤ N → completedWindows log ≤ N
  insideOngoing : s.time.progress ≠ 0 → s.ongoing c

/-- Bundle of what is known after a step from an invariant state. -/
theorem Exec.inv {c : Config} {h : Hooks ι D} (hh : FixedHooks h) {P : State D → ℚ → Prop}
    {mt : Option ℚ} {w : ℚ} (hw : tol < w) {s₀ : State D} (hs : Started c h mt w s₀)
    {log : List Obs} {s : State D} (he : Exec c h P s₀ log s) : Inv c mt w log s := by
  have htol := tol_pos
  induction he with
  | nil =>
    have f := hs.facts hh
    refine ⟨by rw [f.time], f.size, f.nextSize, by rw [f.time], Or.inl (by rw [f.time]),
      by simp [f.windows], Or.inl (by simp [f.time]), fun N _ h1 => by simp, fun hx => ?_⟩
    exact absurd (by rw [f.time]) hx
  | @step log s s' i tr _ hp hr ih =>
    have hsize : s.fulfilAll.hasSize := by
      unfold State.hasSize; rw [fulfilAll_size, ih.size]; exact hasSize_of_pos (by linarith)
    have adv := advance_cases hh hsize hr
    have hsz : s'.size = w := by
      rcases adv.size with e | e <;> rw [e] <;> simp [ih.size, ih.nextSize]
    have hnx : s'.nextSize = w := by rw [adv.nextSize]; simp [ih.nextSize]
    have hon : s.ongoing c := adv.ongoing
    have hnr : ¬ s.time.reachedEnd := hon.2
    have hstart : s.time.start = completedWindows log * w := ih.start.resolve_right hnr
    have hms : s.maxStep c = s.time.untilWindowEnd w := by
      unfold State.maxStep
      rw [if_pos hon, if_pos (by simpa [State.hasSize] using hsize), ih.size]
    have hdt := adv.dt_pos
    have hle := adv.dt_le
    rw [fulfilAll_maxStep, hms] at hle
    have hbound : -tol ≤ (s.time.progressBy i.dt).untilWindowEnd w := by
      rw [TimeHandler.untilWindowEnd_progressBy]; linarith
    cases adv.outcome with
    | subcycle hend time windows iters total complete reqRead reqWrite =>
      simp only [fulfilAll_time, fulfilAll_size, fulfilAll_windows, ih.size] at hend time windows
      have hgt : tol < (s.time.progressBy i.dt).untilWindowEnd w := by
        by_contra hcon
        push Not at hcon
        apply hend
        unfold TimeHandler.reachedEndOfWindow
        rw [equals_iff]; constructor <;> linarith
      have hcomp : completedWindows (log ++ [s'.obs i]) = completedWindows log := by
        simp [State.obs, complete]
      refine ⟨?_, hsz, hnx, ?_, Or.inr ?_, ?_, Or.inl ?_, ?_, fun _ => ⟨?_, ?_⟩⟩
      · rw [time]; exact ih.maxTime
      · rw [time]; simp only [TimeHandler.progressBy]; linarith [ih.progress]
      · rw [time]; exact hgt
      · rw [windows, hcomp]; exact ih.windows
      · rw [time, hcomp]; exact hstart
      · rw [hcomp]; exact ih.maxW
      · have h1 := hon.1; rw [windows]; exact h1
      · rw [TimeHandler.reachedEnd_iff, time]
        rintro ⟨m, hm, h1, _⟩
        have := (TimeHandler.lt_untilWindowEnd.mp hgt).2 m hm
        linarith
    | completed hend hconv hok time windows iters total complete reqRead reqWrite =>
      simp only [fulfilAll_time, fulfilAll_size, fulfilAll_windows, ih.size] at hend time windows hok
      have hcomp : completedWindows (log ++ [s'.obs i]) = completedWindows log + 1 := by
        simp [State.obs, complete]
      have hp0 : s'.time.progress = 0 := by
        rw [time]; unfold TimeHandler.completeTimeWindow; split <;> rfl
      refine ⟨?_, hsz, hnx, by rw [hp0], Or.inl hp0, ?_, ?_, ?_, fun hx => absurd hp0 hx⟩
      · rw [time]; unfold TimeHandler.completeTimeWindow; split <;> exact ih.maxTime
      · rw [windows, hcomp, ih.windows]; ring
      · rw [time, hcomp]
        unfold TimeHandler.completeTimeWindow
        split
        · left; simp only [TimeHandler.progressBy, hstart]; push_cast; ring
        · next hne =>
          right
          have hre := hok.resolve_left hne
          rw [TimeHandler.reachedEnd_iff] at hre ⊢
          obtain ⟨m, hm, h1, h2⟩ := hre
          exact ⟨m, hm, by simpa [TimeHandler.time] using h1, by simpa [TimeHandler.time] using h2⟩
      · intro N hN h1
        rw [hcomp]
        have := hon.1
        rw [hN] at this
        simp only at this
        rw [ih.windows] at this
        omega
    | repeated hend himp hconv time windows iters total complete reqRead reqWrite =>
      simp only [fulfilAll_time, fulfilAll_size, fulfilAll_windows, ih.size] at hend time windows
      have hcomp : completedWindows (log ++ [s'.obs i]) = completedWindows log := by
        simp [State.obs, complete]
      have hp0 : s'.time.progress = 0 := by rw [time]; rfl
      refine ⟨?_, hsz, hnx, by rw [hp0], Or.inl hp0, ?_, Or.inl ?_, ?_, fun hx => absurd hp0 hx⟩
      · rw [time]; exact ih.maxTime
      · rw [windows, hcomp]; exact ih.windows
      · rw [time, hcomp]; exact hstart
      · rw [hcomp]; exact ih.maxW

end Verif
