import Verif.Scheme.TimeProps
import Mathlib.Data.List.Induction

/-!
# Properties C06 - C10, C12, C13: checkpoints, iterations, window counter
-/

set_option autoImplicit false

namespace Verif

open Prog

variable {ι D : Type}

/-! ### Specification: what a solver can compute from its own observations -/

/-- The step `dt` ends the window: it equals `getMaxTimeStepSize()` up to the tolerance. -/
def EndsWindow (c : Config) (s : State D) (dt : ℚ) : Prop := |s.maxStep c - dt| ≤ tol

/-- Time and number of completed windows at the most recent write request; `initialize()` requests
the first checkpoint at time 0. The third component counts the completed windows. -/
def checkpointStep (a : ℚ × ℕ × ℕ) (o : Obs) : ℚ × ℕ × ℕ :=
  let n := a.2.2 + if o.complete then 1 else 0
  if o.reqWrite then (o.time, n, n) else (a.1, a.2.1, n)

def lastCheckpoint (log : List Obs) : ℚ × ℕ × ℕ := log.foldl checkpointStep (0, 0, 0)

theorem lastCheckpoint_snoc (log : List Obs) (o : Obs) :
    lastCheckpoint (log ++ [o]) = checkpointStep (lastCheckpoint log) o := by
  simp [lastCheckpoint]

theorem lastCheckpoint_count (log : List Obs) : (lastCheckpoint log).2.2 = completedWindows log := by
  induction log using List.reverseRecOn with
  | nil => rfl
  | append_singleton log o ih =>
    rw [lastCheckpoint_snoc, completedWindows_snoc, ← ih]
    unfold checkpointStep
    cases o.reqWrite <;> rfl

/-- Number of iterations of the current window that have been repeated: read requests since the
last completed window. -/
def repeats (log : List Obs) : ℕ :=
  log.foldl (fun n o => if o.complete then 0 else if o.reqRead then n + 1 else n) 0

theorem repeats_snoc (log : List Obs) (o : Obs) :
    repeats (log ++ [o]) = if o.complete then 0 else if o.reqRead then repeats log + 1 else repeats log := by
  simp [repeats]

/-! ### Helper lemmas -/

theorem reachedEndOfWindow_iff_endsWindow {c : Config} {mt : Option ℚ} {w : ℚ} (hw : tol < w)
    {log : List Obs} {s : State D} (hi : Inv c mt w log s) (hon : s.ongoing c) (dt : ℚ) :
    (s.time.progressBy dt).reachedEndOfWindow w ↔ EndsWindow c s dt := by
  unfold TimeHandler.reachedEndOfWindow EndsWindow
  rw [TimeHandler.untilWindowEnd_progressBy, equals_iff, maxStep_eq hw hi hon, abs_le]
  constructor <;> rintro ⟨h1, h2⟩ <;> constructor <;> linarith

/-- With limited steps, max-time reached before the window is completed is still reached after. -/
theorem reachedEnd_complete {t : TimeHandler} {w : ℚ} (hle : t.progress ≤ w)
    (hend : ∀ m, t.maxTime = some m → t.time ≤ m) (h : t.reachedEnd) :
    (t.completeTimeWindow w).reachedEnd := by
  have htol := tol_pos
  obtain ⟨m, hm, h1, h2⟩ := TimeHandler.reachedEnd_iff.mp h
  unfold TimeHandler.completeTimeWindow
  split
  · next heq =>
    rw [equals_iff] at heq
    refine TimeHandler.reachedEnd_iff.mpr ⟨m, hm, ?_, ?_⟩ <;>
      simp only [TimeHandler.time] at * <;> linarith [hend m hm, heq.1, heq.2]
  · refine TimeHandler.reachedEnd_iff.mpr ⟨m, hm, ?_, ?_⟩ <;>
      simp only [TimeHandler.time] at * <;> linarith

/-- With sharp steps, completing the window does not change whether max-time is reached. -/
theorem reachedEnd_complete_iff {t : TimeHandler} {w : ℚ}
    (h : t.untilWindowEnd w = 0) : (t.completeTimeWindow w).reachedEnd ↔ t.reachedEnd := by
  have htol := tol_pos
  cases hm : t.maxTime with
  | none =>
    constructor <;> intro hx <;> obtain ⟨m, hm', _⟩ := TimeHandler.reachedEnd_iff.mp hx
    · have : (t.completeTimeWindow w).maxTime = t.maxTime := by
        unfold TimeHandler.completeTimeWindow; split <;> rfl
      rw [this, hm] at hm'; cases hm'
    · rw [hm] at hm'; cases hm'
  | some m =>
    rw [TimeHandler.untilWindowEnd_some hm] at h
    unfold TimeHandler.completeTimeWindow
    simp only [TimeHandler.reachedEnd_iff]
    have hle1 := min_le_left (w - t.progress) (m - t.time)
    have hle2 := min_le_right (w - t.progress) (m - t.time)
    split
    · next heq =>
      rw [equals_iff] at heq
      simp only [hm, TimeHandler.time] at *
      rcases min_choice (w - t.progress) (m - (t.start + t.progress)) with hc | hc
      · have : w = t.progress := by linarith
        subst this
        simp
      · have hmm : m = t.start + t.progress := by linarith
        subst hmm
        simp only [Option.some.injEq, exists_eq_left']
        constructor <;> intro _ <;> constructor <;> linarith
    · simp only [hm, TimeHandler.time, add_zero]

/-! ### C06 -/

/-- **C06.** After `initialize()` a checkpoint must be written in implicit coupling and none in
explicit coupling; no checkpoint must be read. -/
theorem C06_initialize {c : Config} {h : Hooks ι D} (hh : FixedHooks h) {mt : Option ℚ} {w : ℚ}
    {s₀ : State D} (hs : Started c h mt w s₀) :
    s₀.reqWrite = c.implicit ∧ s₀.reqRead = false := by
  have f := hs.facts hh
  exact ⟨f.reqWrite, f.reqRead⟩

/-- **C06.** Requests after `advance` in implicit coupling: inside a window none; at the end of an
iteration a read request iff the window is not complete, and a write request iff the window is
complete and the coupling goes on. At most one of them is raised. -/
theorem C06_implicit {c : Config} {h : Hooks ι D} (hh : FixedHooks h) (himp : c.implicit = true)
    {P : State D → ℚ → Prop} {mt : Option ℚ} {w : ℚ} (hw : tol < w) {s₀ : State D}
    (hs : Started c h mt w s₀) {log : List Obs} {s s' : State D} (he : Exec c h P s₀ log s)
    {i : StepIn D} {tr} (hp : Sharp c s i.dt) (hr : Run (advance c h i s.fulfilAll) tr s') :
    (¬ EndsWindow c s i.dt → s'.reqRead = false ∧ s'.reqWrite = false) ∧
    (EndsWindow c s i.dt →
      (s'.reqRead = true ↔ s'.complete = false) ∧
      (s'.reqWrite = true ↔ s'.complete = true ∧ s'.ongoing c)) ∧
    ¬ (s'.reqRead = true ∧ s'.reqWrite = true) := by
  have hi := he.inv hh hw hs
  have adv := advance_cases hh (hasSize_fulfil hw hi) hr
  have hon : s.ongoing c := adv.ongoing
  have hends := reachedEndOfWindow_iff_endsWindow hw hi hon i.dt
  cases adv.outcome with
  | subcycle hend time windows _ _ hc hrd hwr =>
    simp only [fulfilAll_time, fulfilAll_size, hi.size, hends] at hend
    simp [hend, hrd, hwr]
  | completed hend hconv hok time windows _ _ hc hrd hwr =>
    simp only [fulfilAll_time, fulfilAll_size, hi.size, fulfilAll_windows] at hend time hwr windows
    have hends' := hends.mp hend
    have hzero : (s.time.progressBy i.dt).untilWindowEnd w = 0 := by
      have := hp.2 (by unfold EndsWindow at hends'; exact (abs_le.mp hends').2)
      rw [TimeHandler.untilWindowEnd_progressBy, this, maxStep_eq hw hi hon]; ring
    refine ⟨fun hx => absurd hends' hx, fun _ => ⟨by simp [hrd, hc], ?_⟩, by simp [hrd]⟩
    rw [hwr, hc]
    simp only [himp, true_and, State.ongoing, windows, time, reachedEnd_complete_iff hzero]
    exact Iff.rfl
  | repeated hend _ hconv time _ _ _ hc hrd hwr =>
    simp only [fulfilAll_time, fulfilAll_size, hi.size] at hend
    refine ⟨fun hx => absurd (hends.mp hend) hx, fun _ => ⟨by simp [hrd, hc], by simp [hwr, hc]⟩,
      by simp [hwr]⟩

/-- **C06.** The same for every accepted step (also with remainders below the tolerance), except
that a write request after completion may also be raised although the coupling just ended. What
still holds: if the solver limited its step and the coupling goes on, the request is raised.
Missing compared to `C06_implicit`: `reqWrite → ongoing`, see `C06_late_write_request`. -/
theorem C06_implicit_limited_partial {c : Config} {h : Hooks ι D} (hh : FixedHooks h)
    (himp : c.implicit = true)
    {P : State D → ℚ → Prop} {mt : Option ℚ} {w : ℚ} (hw : tol < w) {s₀ : State D}
    (hs : Started c h mt w s₀) {log : List Obs} {s s' : State D} (he : Exec c h P s₀ log s)
    {i : StepIn D} {tr} (hp : Limited c s i.dt) (hr : Run (advance c h i s.fulfilAll) tr s') :
    (¬ EndsWindow c s i.dt → s'.reqRead = false ∧ s'.reqWrite = false) ∧
    (EndsWindow c s i.dt →
      (s'.reqRead = true ↔ s'.complete = false) ∧
      (s'.complete = true → s'.ongoing c → s'.reqWrite = true)) ∧
    ¬ (s'.reqRead = true ∧ s'.reqWrite = true) := by
  have hi := he.inv hh hw hs
  have adv := advance_cases hh (hasSize_fulfil hw hi) hr
  have hon : s.ongoing c := adv.ongoing
  have hends := reachedEndOfWindow_iff_endsWindow hw hi hon i.dt
  cases adv.outcome with
  | subcycle hend time windows _ _ hc hrd hwr =>
    simp only [fulfilAll_time, fulfilAll_size, hi.size, hends] at hend
    simp [hend, hrd, hwr]
  | completed hend hconv hok time windows _ _ hc hrd hwr =>
    simp only [fulfilAll_time, fulfilAll_size, hi.size, fulfilAll_windows] at hend time hwr windows
    have hends' := hends.mp hend
    refine ⟨fun hx => absurd hends' hx, fun _ => ⟨by simp [hrd, hc], fun _ hon' => ?_⟩, by simp [hrd]⟩
    rw [hwr]
    refine ⟨himp, ?_, fun hre => hon'.2 ?_⟩
    · have := hon'.1; rw [windows] at this; exact this
    · unfold Limited at hp
      rw [maxStep_eq hw hi hon] at hp
      rw [time]
      refine reachedEnd_complete ?_ (fun m hm => ?_) hre
      · have := TimeHandler.untilWindowEnd_le s.time w
        simp only [TimeHandler.progressBy]; linarith
      · have := TimeHandler.untilWindowEnd_le_end (t := s.time) hm w
        simp only [TimeHandler.progressBy, TimeHandler.time] at this ⊢; linarith
  | repeated hend _ hconv time _ _ _ hc hrd hwr =>
    simp only [fulfilAll_time, fulfilAll_size, hi.size] at hend
    refine ⟨fun hx => absurd (hends.mp hend) hx, fun _ => ⟨by simp [hrd, hc], by simp [hc]⟩,
      by simp [hwr]⟩

/-- **C06.** Explicit coupling never requires checkpoints. -/
theorem C06_explicit {c : Config} {h : Hooks ι D} (hh : FixedHooks h) (hexp : c.implicit = false)
    {P : State D → ℚ → Prop} {mt : Option ℚ} {w : ℚ} (hw : tol < w) {s₀ : State D}
    (hs : Started c h mt w s₀) {log : List Obs} {s : State D} (he : Exec c h P s₀ log s) :
    s.reqRead = false ∧ s.reqWrite = false := by
  cases he with
  | nil => have f := hs.facts hh; exact ⟨f.reqRead, by rw [f.reqWrite, hexp]⟩
  | step he' hp hr =>
    have hi := he'.inv hh hw hs
    have adv := advance_cases hh (hasSize_fulfil hw hi) hr
    cases adv.outcome with
    | subcycle _ _ _ _ _ _ hrd hwr => exact ⟨hrd, hwr⟩
    | completed _ _ _ _ _ _ _ _ hrd hwr =>
      refine ⟨hrd, ?_⟩
      rw [← Bool.not_eq_true, hwr, hexp]
      simp
    | repeated _ himp => rw [hexp] at himp; cases himp

/-! ### C07 -/

/-- **C07.** While the coupling is ongoing, the current window starts at the time of the most recent
write request and the number of completed windows is the one at that moment. -/
theorem C07_checkpoint_is_window_start {c : Config} {h : Hooks ι D} (hh : FixedHooks h)
    (himp : c.implicit = true) {mt : Option ℚ} {w : ℚ} (hw : tol < w) {s₀ : State D}
    (hs : Started c h mt w s₀) {log : List Obs} {s : State D}
    (he : Exec c h (Limited c) s₀ log s) (hon : s.ongoing c) :
    (lastCheckpoint log).1 = s.time.start ∧ (lastCheckpoint log).2.1 = completedWindows log := by
  induction he with
  | nil => have f := hs.facts hh; rw [f.time]; exact ⟨rfl, rfl⟩
  | @step log s s' i tr he' hp hr ih =>
    have hi := he'.inv hh hw hs
    have adv := advance_cases hh (hasSize_fulfil hw hi) hr
    have hons : s.ongoing c := adv.ongoing
    obtain ⟨ih1, ih2⟩ := ih hons
    rw [lastCheckpoint_snoc, completedWindows_snoc]
    cases adv.outcome with
    | subcycle _ time _ _ _ hc hrd hwr =>
      simp only [checkpointStep, State.obs, hc, hwr, time, Bool.false_eq_true, if_false]
      exact ⟨ih1, ih2⟩
    | repeated _ _ _ time _ _ _ hc hrd hwr =>
      simp only [checkpointStep, State.obs, hc, hwr, time, Bool.false_eq_true, if_false]
      exact ⟨ih1, ih2⟩
    | completed hend _ _ time windows _ _ hc hrd hwr =>
      have hends := reachedEndOfWindow_iff_endsWindow hw hi hons i.dt
      simp only [fulfilAll_time, fulfilAll_size, hi.size] at hend time
      have := ((C06_implicit_limited_partial hh himp hw hs he' hp hr).2.1 (hends.mp hend)).2 hc hon
      simp only [checkpointStep, State.obs, hc, this, if_true]
      refine ⟨?_, by rw [lastCheckpoint_count]⟩
      rw [time]
      unfold TimeHandler.completeTimeWindow
      split <;> simp [TimeHandler.time]

/-- **C07.** Whenever reading a checkpoint is required, the participant's time is exactly the time at
which the most recent write request was raised, and the window counter is that of then. -/
theorem C07_read_restores_write {c : Config} {h : Hooks ι D} (hh : FixedHooks h)
    (himp : c.implicit = true) {mt : Option ℚ} {w : ℚ} (hw : tol < w) {s₀ : State D}
    (hs : Started c h mt w s₀) {log : List Obs} {s : State D}
    (he : Exec c h (Limited c) s₀ log s) (hread : s.reqRead = true) :
    s.time.time = (lastCheckpoint log).1 ∧ s.windows = 1 + (lastCheckpoint log).2.1 := by
  have hi := he.inv hh hw hs
  cases he with
  | nil => have f := hs.facts hh; rw [f.reqRead] at hread; cases hread
  | @step log s s' i tr he' hp hr =>
    have hi' := he'.inv hh hw hs
    have adv := advance_cases hh (hasSize_fulfil hw hi') hr
    obtain ⟨ih1, ih2⟩ := C07_checkpoint_is_window_start hh himp hw hs he' adv.ongoing
    rw [lastCheckpoint_snoc]
    cases adv.outcome with
    | subcycle _ _ _ _ _ _ hrd => rw [hrd] at hread; cases hread
    | completed _ _ _ _ _ _ _ _ hrd => rw [hrd] at hread; cases hread
    | repeated _ _ _ time windows _ _ hc hrd hwr =>
      have hw' := hi'.windows
      simp only [checkpointStep, State.obs, hwr, Bool.false_eq_true, if_false, time, windows,
        fulfilAll_windows, fulfilAll_time]
      refine ⟨?_, by rw [ih2, hw']⟩
      rw [ih1]; simp [TimeHandler.resetProgress, TimeHandler.time]

/-! ### C08 -/

/-- **C08.** If a raised request has not been queried, `advance` fails (it neither returns nor
communicates). -/
theorem C08_unfulfilled_fails {c : Config} {h : Hooks ι D} {i : StepIn D} {s : State D}
    (hreq : (s.reqWrite = true ∧ s.fulWrite = false) ∨ (s.reqRead = true ∧ s.fulRead = false) ∨
      (s.reqInit = true ∧ s.fulInit = false)) : advance c h i s = .fail .check := by
  unfold advance addComputedTime firstExchange checkActions ensure
  have : ¬ State.actionsDone { s with time := s.time.progressBy i.dt, sendBuf := i.value } := by
    unfold State.actionsDone
    rcases hreq with ⟨h1, h2⟩ | ⟨h1, h2⟩ | ⟨h1, h2⟩ <;> simp [h1, h2]
  simp [this]

/-- **C08.** If all requests were queried, neither of the two action checks in `advance` fails: the
first passes for the given state and the second sees no request at all, whatever the exchange
functions in between do, as long as they do not touch actions. -/
theorem C08_fulfilled_passes (s : State D) :
    s.fulfilAll.actionsDone ∧ s.clearActions.actionsDone ∧
    (∀ s', SameControl s.clearActions s' → s'.actionsDone) := by
  refine ⟨?_, ?_, fun s' hc => ?_⟩
  · unfold State.actionsDone State.fulfilAll
    refine ⟨fun h => ?_, fun h => ?_, fun h => ?_⟩ <;> simp_all
  · simp [State.actionsDone, State.clearActions]
  · have h1 := hc.reqInit; have h2 := hc.reqRead; have h3 := hc.reqWrite
    simp only [State.clearActions] at h1 h2 h3
    simp [State.actionsDone, h1, h2, h3]

/-! ### C09, C10: iteration limits -/

/-- The number of iterations in the current window as a function of the observations. -/
theorem iters_eq {c : Config} {h : Hooks ι D} (hh : FixedHooks h) (himp : c.implicit = true)
    {P : State D → ℚ → Prop} {mt : Option ℚ} {w : ℚ} (hw : tol < w) {s₀ : State D}
    (hs : Started c h mt w s₀) {log : List Obs} {s : State D} (he : Exec c h P s₀ log s) :
    s.iters = repeats log + 1 := by
  induction he with
  | nil => have f := hs.facts hh; rw [f.iters]; rfl
  | @step log s s' i tr he' hp hr ih =>
    have hi := he'.inv hh hw hs
    have adv := advance_cases hh (hasSize_fulfil hw hi) hr
    rw [repeats_snoc]
    cases adv.outcome with
    | subcycle _ _ _ it _ hc hrd => simp [State.obs, hc, hrd, it, ih]
    | repeated _ _ _ _ _ it _ hc hrd => simp [State.obs, hc, hrd, it, ih]
    | completed _ _ _ _ _ it _ hc => simp [State.obs, hc, it, himp]

/-- Specification of the convergence decision of one iteration: forced at max-iterations, otherwise
the measures decide, but not before min-iterations. -/
def decision (c : Config) (iteration : ℕ) (verdict : Bool) : Bool :=
  if c.maxIter = some iteration then true else verdict && decide (c.minIter ≤ iteration)

/-- Contract for the participant that measures convergence. -/
def Measures (c : Config) (h : Hooks ι D) : Prop :=
  ∀ i sa t1 s1 t2 s2, Run (h.first i sa) t1 s1 → Run (h.second i s1.clearActions) t2 s2 →
    s2.converged = decision c sa.iters i.verdict

theorem Serial.measures {c : Config} (h1 : c.first = false) (h2 : c.implicit = true) :
    Measures c (Serial.hooks (D := D) c) := by
  intro i sa t1 s1 t2 s2 r1 r2
  simp only [Serial.hooks, Serial.first, h1, h2, Bool.false_eq_true, if_false, if_true, run_send,
    run_ensure, run_ret] at r1
  obtain ⟨_, _, _, _, _, _, rfl⟩ := r1
  simp only [Serial.hooks, Serial.second, Serial.receiveSize, h1, Bool.false_eq_true, if_false] at r2
  split at r2
  · split at r2
    · simp only [recvSize, run_recv] at r2
      obtain ⟨m, _, _, r2⟩ := r2
      cases m <;> simp only [run_ensure, run_fail, run_recvData, run_notify, run_ret] at r2
      obtain ⟨_, _, _, _, _, _, _, _, rfl⟩ := r2
      simp [State.clearActions, doImplicitStep, decision]
    · simp only [run_ensure, run_recvData, run_notify, run_ret] at r2
      obtain ⟨_, _, _, _, _, _, rfl⟩ := r2
      simp [State.clearActions, doImplicitStep, decision]
  · simp only [run_ret] at r2
    obtain ⟨_, rfl⟩ := r2
    simp [State.clearActions, doImplicitStep, decision]

theorem Parallel.measures {c : Config} (h1 : c.first = false) (h2 : c.implicit = true) :
    Measures c (Parallel.hooks (D := D) c) := by
  intro i sa t1 s1 t2 s2 r1 r2
  simp only [Parallel.hooks, Parallel.first, h1, Bool.false_eq_true, if_false, run_recvData,
    run_notify, run_ensure, run_ret] at r1
  obtain ⟨_, _, _, _, _, _, rfl⟩ := r1
  simp only [Parallel.hooks, Parallel.second, h1, h2, Bool.false_eq_true, if_false, if_true,
    run_send, run_ensure, run_ret] at r2
  obtain ⟨_, _, _, _, _, _, rfl⟩ := r2
  rfl

/-- At the end of an iteration the window is complete iff the decision says so. -/
theorem complete_iff_decision {c : Config} {h : Hooks ι D} (hh : FixedHooks h)
    (hm : Measures c h) (himp : c.implicit = true)
    {P : State D → ℚ → Prop} {mt : Option ℚ} {w : ℚ} (hw : tol < w) {s₀ : State D}
    (hs : Started c h mt w s₀) {log : List Obs} {s s' : State D} (he : Exec c h P s₀ log s)
    {i : StepIn D} {tr} (hr : Run (advance c h i s.fulfilAll) tr s') :
    s'.complete = true ↔ EndsWindow c s i.dt ∧ decision c (repeats log + 1) i.verdict = true := by
  have hi := he.inv hh hw hs
  have adv := advance_cases hh (hasSize_fulfil hw hi) hr
  have hon : s.ongoing c := adv.ongoing
  have hends := reachedEndOfWindow_iff_endsWindow hw hi hon i.dt
  rw [← iters_eq hh himp hw hs he]
  have hex := adv.exchanged
  simp only [fulfilAll_time, fulfilAll_size, hi.size, hends] at hex
  cases adv.outcome with
  | subcycle hend _ _ _ _ hc =>
    simp only [fulfilAll_time, fulfilAll_size, hi.size, hends] at hend
    simp [hc, hend]
  | completed hend hconv _ _ _ _ _ hc =>
    simp only [fulfilAll_time, fulfilAll_size, hi.size, hends] at hend
    obtain ⟨sa, t1, s1, t2, s2, e1, _, _, r1, r2, e2, _⟩ := hex hend
    have := hm _ _ _ _ _ _ r1 r2
    rw [e1, ← e2, hconv himp, fulfilAll_iters] at this
    simp [hc, hend, ← this]
  | repeated hend _ hconv _ _ _ _ hc =>
    simp only [fulfilAll_time, fulfilAll_size, hi.size, hends] at hend
    obtain ⟨sa, t1, s1, t2, s2, e1, _, _, r1, r2, e2, _⟩ := hex hend
    have := hm _ _ _ _ _ _ r1 r2
    rw [e1, ← e2, hconv, fulfilAll_iters] at this
    simp [hc, ← this]

/-- **C09.** With max-iterations `N`, at most `N - 1` iterations of a window are ever repeated, i.e. no
window is iterated more than `N` times: the `N`-th iteration completes the window. -/
theorem C09_max_iterations {c : Config} {h : Hooks ι D} (hh : FixedHooks h)
    (hm : Measures c h) (himp : c.implicit = true) {N : ℕ} (hN : c.maxIter = some N) (hN1 : 1 ≤ N)
    {P : State D → ℚ → Prop} {mt : Option ℚ} {w : ℚ} (hw : tol < w) {s₀ : State D}
    (hs : Started c h mt w s₀) {log : List Obs} {s : State D} (he : Exec c h P s₀ log s) :
    repeats log + 1 ≤ N := by
  induction he with
  | nil => simpa [repeats] using hN1
  | @step log s s' i tr he' hp hr ih =>
    rw [repeats_snoc]
    have key := complete_iff_decision hh hm himp hw hs he' hr
    have hi := he'.inv hh hw hs
    have adv := advance_cases hh (hasSize_fulfil hw hi) hr
    have hends := reachedEndOfWindow_iff_endsWindow hw hi adv.ongoing i.dt
    split
    · exact hN1
    · next hc =>
      split
      · next hrd =>
        simp only [State.obs] at hc hrd
        have hend : EndsWindow c s i.dt := by
          cases adv.outcome with
          | subcycle _ _ _ _ _ _ h' => rw [h'] at hrd; cases hrd
          | completed _ _ _ _ _ _ _ _ h' => rw [h'] at hrd; cases hrd
          | repeated hend =>
            simp only [fulfilAll_time, fulfilAll_size, hi.size, hends] at hend
            exact hend
        rw [key] at hc
        have : ¬ decision c (repeats log + 1) i.verdict = true := fun hd => hc ⟨hend, hd⟩
        have : N ≠ repeats log + 1 := by
          intro heq
          apply this
          simp [decision, hN, heq]
        omega
      · exact ih

/-- **C10.** A window completes only after at least min-iterations iterations (given
min-iterations ≤ max-iterations, which the configuration enforces). -/
theorem C10_min_iterations {c : Config} {h : Hooks ι D} (hh : FixedHooks h)
    (hm : Measures c h) (himp : c.implicit = true) (hmm : ∀ N, c.maxIter = some N → c.minIter ≤ N)
    {P : State D → ℚ → Prop} {mt : Option ℚ} {w : ℚ} (hw : tol < w) {s₀ : State D}
    (hs : Started c h mt w s₀) {log : List Obs} {s s' : State D} (he : Exec c h P s₀ log s)
    {i : StepIn D} {tr} (hr : Run (advance c h i s.fulfilAll) tr s') (hc : s'.complete = true) :
    c.minIter ≤ repeats log + 1 := by
  obtain ⟨_, hd⟩ := (complete_iff_decision hh hm himp hw hs he hr).mp hc
  unfold decision at hd
  split at hd
  · next h1 => exact hmm _ h1
  · simp only [Bool.and_eq_true, decide_eq_true_eq] at hd; exact hd.2

/-! ### C12 -/

/-- Contract for the participant that receives the verdict. -/
def ReceivesVerdict (h : Hooks ι D) (peer : ι) : Prop :=
  ∀ i sa t1 s1 t2 s2, Run (h.first i sa) t1 s1 → Run (h.second i s1.clearActions) t2 s2 →
    ∀ b, Ev.got peer (.conv b) ∈ t1 ++ t2 ↔ b = s2.converged

theorem Serial.receivesVerdict {c : Config} (h1 : c.first = true) (h2 : c.implicit = true) :
    ReceivesVerdict (Serial.hooks (D := D) c) false := by
  intro i sa t1 s1 t2 s2 r1 r2 b
  have r1' : ∀ b, Ev.got false (Msg.conv b) ∉ t1 := by
    simp only [Serial.hooks, Serial.first, Serial.sendSize, h1, if_true] at r1
    split at r1
    · simp only [run_send, run_ensure, run_ret] at r1
      obtain ⟨_, rfl, _, _, rfl, rfl, rfl⟩ := r1
      simp
    · simp only [run_send, run_ensure, run_ret] at r1
      obtain ⟨_, _, rfl, rfl, rfl⟩ := r1
      simp
  simp only [Serial.hooks, Serial.second, h1, h2, if_true, run_recvConv, run_ensure, run_recvData,
    run_notify, run_ret] at r2
  obtain ⟨b', _, rfl, _, _, _, rfl, _, rfl, rfl⟩ := r2
  simp [r1']

theorem Parallel.receivesVerdict {c : Config} (h1 : c.first = true) (h2 : c.implicit = true) :
    ReceivesVerdict (Parallel.hooks (D := D) c) false := by
  intro i sa t1 s1 t2 s2 r1 r2 b
  simp only [Parallel.hooks, Parallel.first, h1, if_true, run_send, run_ensure, run_ret] at r1
  obtain ⟨_, _, rfl, rfl, rfl⟩ := r1
  simp only [Parallel.hooks, Parallel.second, h1, h2, if_true, run_recvConv, run_ensure,
    run_recvData, run_notify, run_ret] at r2
  obtain ⟨_, b', _, rfl, _, _, rfl, _, rfl, rfl⟩ := r2
  simp

/-- **C12.** Explicit coupling: the window is complete after `advance(dt)` iff `dt` reached its end. -/
theorem C12_explicit {c : Config} {h : Hooks ι D} (hh : FixedHooks h) (hexp : c.implicit = false)
    {P : State D → ℚ → Prop} {mt : Option ℚ} {w : ℚ} (hw : tol < w) {s₀ : State D}
    (hs : Started c h mt w s₀) {log : List Obs} {s s' : State D} (he : Exec c h P s₀ log s)
    {i : StepIn D} {tr} (hr : Run (advance c h i s.fulfilAll) tr s') :
    s'.complete = true ↔ EndsWindow c s i.dt := by
  have hi := he.inv hh hw hs
  have adv := advance_cases hh (hasSize_fulfil hw hi) hr
  have hends := reachedEndOfWindow_iff_endsWindow hw hi adv.ongoing i.dt
  cases adv.outcome with
  | subcycle hend _ _ _ _ hc =>
    simp only [fulfilAll_time, fulfilAll_size, hi.size, hends] at hend
    simp [hc, hend]
  | completed hend _ _ _ _ _ _ hc =>
    simp only [fulfilAll_time, fulfilAll_size, hi.size, hends] at hend
    simp [hc, hend]
  | repeated _ himp => rw [hexp] at himp; cases himp

/-- **C12.** Implicit coupling, measuring participant: complete iff the end of the window was reached
and the iteration converged (according to the decision rule). -/
theorem C12_implicit_measuring {c : Config} {h : Hooks ι D} (hh : FixedHooks h)
    (hm : Measures c h) (himp : c.implicit = true)
    {P : State D → ℚ → Prop} {mt : Option ℚ} {w : ℚ} (hw : tol < w) {s₀ : State D}
    (hs : Started c h mt w s₀) {log : List Obs} {s s' : State D} (he : Exec c h P s₀ log s)
    {i : StepIn D} {tr} (hr : Run (advance c h i s.fulfilAll) tr s') :
    s'.complete = true ↔ EndsWindow c s i.dt ∧ decision c (repeats log + 1) i.verdict = true :=
  complete_iff_decision hh hm himp hw hs he hr

/-- **C12.** Implicit coupling, the other participant: complete iff the end of the window was reached
and the partner sent a positive verdict. -/
theorem C12_implicit_receiving {c : Config} {h : Hooks ι D} (hh : FixedHooks h) {peer : ι}
    (hm : ReceivesVerdict h peer) (himp : c.implicit = true)
    {P : State D → ℚ → Prop} {mt : Option ℚ} {w : ℚ} (hw : tol < w) {s₀ : State D}
    (hs : Started c h mt w s₀) {log : List Obs} {s s' : State D} (he : Exec c h P s₀ log s)
    {i : StepIn D} {tr} (hr : Run (advance c h i s.fulfilAll) tr s') :
    s'.complete = true ↔ EndsWindow c s i.dt ∧ Ev.got peer (.conv true) ∈ tr := by
  have hi := he.inv hh hw hs
  have adv := advance_cases hh (hasSize_fulfil hw hi) hr
  have hends := reachedEndOfWindow_iff_endsWindow hw hi adv.ongoing i.dt
  have hex := adv.exchanged
  simp only [fulfilAll_time, fulfilAll_size, hi.size, hends] at hex
  cases adv.outcome with
  | subcycle hend _ _ _ _ hc =>
    simp only [fulfilAll_time, fulfilAll_size, hi.size, hends] at hend
    simp [hc, hend]
  | completed hend hconv _ _ _ _ _ hc =>
    simp only [fulfilAll_time, fulfilAll_size, hi.size, hends] at hend
    obtain ⟨sa, t1, s1, t2, s2, e1, _, _, r1, r2, e2, rfl⟩ := hex hend
    simp [hc, hend, hm _ _ _ _ _ _ r1 r2, ← e2, hconv himp]
  | repeated hend _ hconv _ _ _ _ hc =>
    simp only [fulfilAll_time, fulfilAll_size, hi.size, hends] at hend
    obtain ⟨sa, t1, s1, t2, s2, e1, _, _, r1, r2, e2, rfl⟩ := hex hend
    simp only [hc, hend, hm _ _ _ _ _ _ r1 r2, ← e2, hconv]
    simp

/-! ### C13 -/

/-- **C13.** The window counter is one plus the number of completed windows. -/
theorem C13_window_counter {c : Config} {h : Hooks ι D} (hh : FixedHooks h)
    {P : State D → ℚ → Prop} {mt : Option ℚ} {w : ℚ} (hw : tol < w) {s₀ : State D}
    (hs : Started c h mt w s₀) {log : List Obs} {s : State D} (he : Exec c h P s₀ log s) :
    s.windows = 1 + completedWindows log := by
  rw [(he.inv hh hw hs).windows]

end Verif
